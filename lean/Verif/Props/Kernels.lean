/-
C79: the compiled kernels compute the same fluxes on a graphics card as on the processor, whatever the order of the threads, and these are the
fluxes of the model of the Cartesian equations.
-/
import Verif.Lemmas.Kernels
import Verif.Props.Flux

namespace WxVerif.Props.Kernels

open WxVerif.Kernels WxVerif.Flux WxVerif.Threads WxVerif.EulerCartesian
open WxVerif.Props.Flux (cartesianLine_eq)

/-- a flat array seen as an array of shape `(_, s1, s2, s3)` -/
def view (q : Nat → ℝ) (s1 s2 s3 : Nat) : Arr := fun v i j k => q (rowMajor s1 s2 s3 v i j k)

/-! ## Indices -/

private theorem index_lt {s1 s2 s3 i j k : Nat} (hi : i < s1) (hj : j < s2) (hk : k < s3) : (i * s2 + j) * s3 + k < s2 * s1 * s3 := by
  have h1 : i * s2 + j < s2 * s1 := by
    calc i * s2 + j < i * s2 + s2 := by omega
      _ = (i + 1) * s2 := by ring
      _ ≤ s1 * s2 := Nat.mul_le_mul_right _ hi
      _ = s2 * s1 := Nat.mul_comm _ _
  calc (i * s2 + j) * s3 + k < (i * s2 + j) * s3 + s3 := by omega
    _ = (i * s2 + j + 1) * s3 := by ring
    _ ≤ s2 * s1 * s3 := Nat.mul_le_mul_right _ h1

private theorem index_inj {s2 s3 i j k i' j' k' : Nat} (hj : j < s2) (hk : k < s3) (hj' : j' < s2) (hk' : k' < s3)
    (h : (i * s2 + j) * s3 + k = (i' * s2 + j') * s3 + k') : i = i' ∧ j = j' ∧ k = k' := by
  obtain ⟨h1, h2⟩ := var_split hk hk' h
  obtain ⟨h3, h4⟩ := var_split hj hj' h1
  exact ⟨h3, h4, h2⟩

private theorem rowMajor_eq (s1 s2 s3 v i j k : Nat) : rowMajor s1 s2 s3 v i j k = v * (s2 * s1 * s3) + ((i * s2 + j) * s3 + k) := by
  unfold rowMajor; ring

private theorem cIndex_eq (s1 s2 s3 i j k : Nat) : cIndex 0 i j k s1 s2 s3 = (i * s2 + j) * s3 + k := by
  unfold cIndex; ring

private theorem readState_eq (q : Nat → ℝ) (s1 s2 s3 i j k : Nat) :
    readState q ((i * s2 + j) * s3 + k) (s2 * s1 * s3) = EulerCartesian.read (view q s1 s2 s3) i j k := by
  simp only [readState, EulerCartesian.read, view, rowMajor_eq, Nat.zero_mul, Nat.one_mul, Nat.zero_add]

/-- every place of an array of four variables is an entry of it -/
private theorem rowMajor_surj {s1 s2 s3 o : Nat} (h : o < 4 * (s2 * s1 * s3)) :
    ∃ v < 4, ∃ i < s1, ∃ j < s2, ∃ k < s3, o = rowMajor s1 s2 s3 v i j k := by
  have h0 : 0 < s2 * s1 * s3 := by rcases Nat.eq_zero_or_pos (s2 * s1 * s3) with h0 | h0 <;> omega
  have h3 : 0 < s3 := Nat.pos_of_mul_pos_left h0
  have h2 : 0 < s2 := Nat.pos_of_mul_pos_right (Nat.pos_of_mul_pos_right h0)
  refine ⟨o / s3 / s2 / s1, ?_, o / s3 / s2 % s1, Nat.mod_lt _ (Nat.pos_of_mul_pos_left (Nat.pos_of_mul_pos_right h0)), o / s3 % s2,
    Nat.mod_lt _ h2, o % s3, Nat.mod_lt _ h3, ?_⟩
  · rw [Nat.div_div_eq_div_mul, Nat.div_div_eq_div_mul]
    apply Nat.div_lt_of_lt_mul
    calc o < 4 * (s2 * s1 * s3) := h
      _ = s3 * (s2 * s1) * 4 := by ring
  · unfold rowMajor
    rw [Nat.mul_comm (o / s3 / s2 / s1), Nat.div_add_mod, Nat.mul_comm (o / s3 / s2), Nat.div_add_mod, Nat.mul_comm (o / s3), Nat.div_add_mod]

/-! ## What the loops leave, entry by entry -/

private theorem face_target {q : Nat → ℝ} {dir l r s dir' v p : Nat} {X : ℝ} (hl : l < s) (hr : r < s) (hlr : l ≠ r) (hv : v < 4) (hp : p < s)
    (h1 : dir' = dir → p = l → X = field v (ausmKernel dir (readState q l s) (readState q r s)).1)
    (h2 : dir' = dir → p = r → X = field v (ausmKernel dir (readState q l s) (readState q r s)).2) :
    Writes (faceOps q dir l r s) ⟨dir', v * s + p⟩ X ∨ Leaves (faceOps q dir l r s) ⟨dir', v * s + p⟩ := by
  by_cases hd : dir' = dir
  · by_cases e1 : p = l
    · rw [h1 hd e1, hd, e1]
      exact Or.inl (faceOps_writes hl hr hlr hv).1
    · by_cases e2 : p = r
      · rw [h2 hd e2, hd, e2]
        exact Or.inl (faceOps_writes hl hr hlr hv).2
      · refine Or.inr (leaves_of_uses fun o ho ha => ?_)
        obtain ⟨w, -, h | h⟩ := faceOps_uses ho ha
        · rw [Addr.mk.injEq] at h
          exact e1 (var_split hp hl h.2).2
        · rw [Addr.mk.injEq] at h
          exact e2 (var_split hp hr h.2).2
  · refine Or.inr (leaves_of_uses fun o ho ha => ?_)
    obtain ⟨w, -, h | h⟩ := faceOps_uses ho ha <;> rw [Addr.mk.injEq] at h <;> exact hd h.1

private theorem wall_target {q : Nat → ℝ} {dir l s dir' v p : Nat} {X : ℝ} (hl : l < s) (hv : v < 4) (hp : p < s)
    (h1 : dir' = dir → p = l → X = field v (boundaryKernel dir (readState q l s) ⟨0, 0, 0, 0⟩)) :
    Writes (wallOps q dir l s) ⟨dir', v * s + p⟩ X ∨ Leaves (wallOps q dir l s) ⟨dir', v * s + p⟩ := by
  by_cases hd : dir' = dir ∧ p = l
  · rw [h1 hd.1 hd.2, hd.1, hd.2]
    exact Or.inl (storeState_writes _ hl hv)
  · refine Or.inr (leaves_of_uses fun o ho ha => ?_)
    obtain ⟨w, -, h⟩ := storeState_uses ho ha
    rw [Addr.mk.injEq] at h
    exact hd ⟨h.1, (var_split hp hl h.2).2⟩

private theorem append_target {p r : List Op} {a : Addr} {X : ℝ} (h1 : Writes p a X ∨ Leaves p a) (h2 : Writes r a X ∨ Leaves r a) :
    Writes (p ++ r) a X ∨ Leaves (p ++ r) a := by
  rcases h2 with h2 | h2
  · exact Or.inl fun m => by rw [exec_append]; exact h2 _
  · rcases h1 with h1 | h1
    · exact Or.inl fun m => by rw [exec_append, h2]; exact h1 m
    · exact Or.inr fun m => by rw [exec_append, h2, h1]

section Riemann

variable (q1 q2 : Nat → ℝ) (nx1 nx2 n : Nat) (old : Arr)

/-- place of the entry `(i, j, k)` of an interface array -/
private def pos (i j k : Nat) : Nat := (i * nx1 + j) * (2 * n) + k

/-- number of entries of one variable -/
private def str : Nat := nx1 * nx2 * (2 * n)

private theorem slot_low {k : Nat} (hk : k < n) : (if k < n then k else k - n) = k ∧ decide (n ≤ k) = false := by
  constructor
  · rw [if_pos hk]
  · simpa using hk

private theorem slot_high (k : Nat) : (if n + k < n then n + k else n + k - n) = k ∧ decide (n ≤ n + k) = true := by
  constructor
  · rw [if_neg (by omega)]; omega
  · simp

private theorem r1_left {v i j k : Nat} (hj : j + 1 < nx1) :
    riemann1 n nx1 (view q1 nx2 nx1 (2 * n)) old v i j (n + k) =
      field v (ausmKernel 0 (readState q1 (pos nx1 n i j (n + k)) (str nx1 nx2 n)) (readState q1 (pos nx1 n i (j + 1) k) (str nx1 nx2 n))).1 := by
  unfold riemann1 pos str
  simp only [(slot_high n k).1, (slot_high n k).2]
  rw [cartesianLine_eq _ _ (by omega) _ _ _ (by omega), readState_eq, readState_eq]
  simp only [if_pos hj, slot, if_true]
  rfl

private theorem r1_right {v i j k : Nat} (hj : j + 1 < nx1) (hk : k < n) :
    riemann1 n nx1 (view q1 nx2 nx1 (2 * n)) old v i (j + 1) k =
      field v (ausmKernel 0 (readState q1 (pos nx1 n i j (n + k)) (str nx1 nx2 n)) (readState q1 (pos nx1 n i (j + 1) k) (str nx1 nx2 n))).2 := by
  unfold riemann1 pos str
  simp only [(slot_low n hk).1, (slot_low n hk).2]
  rw [cartesianLine_eq _ _ (by omega) _ _ _ hj, readState_eq, readState_eq]
  simp only [Nat.add_eq_zero_iff, one_ne_zero, and_false, if_false, Nat.add_sub_cancel, slot, if_true]
  rfl

private theorem r1_west {v i k : Nat} (h1 : 0 < nx1) (hk : k < n) :
    riemann1 n nx1 (view q1 nx2 nx1 (2 * n)) old v i 0 k =
      field v (boundaryKernel 0 (readState q1 (pos nx1 n i 0 k) (str nx1 nx2 n)) ⟨0, 0, 0, 0⟩) := by
  unfold riemann1 pos str
  simp only [(slot_low n hk).1, (slot_low n hk).2]
  rw [cartesianLine_eq _ _ h1 _ _ _ h1, readState_eq]
  rfl

private theorem r1_east {v i k : Nat} (h1 : 0 < nx1) :
    riemann1 n nx1 (view q1 nx2 nx1 (2 * n)) old v i (nx1 - 1) (n + k) =
      field v (boundaryKernel 0 (readState q1 (pos nx1 n i (nx1 - 1) (n + k)) (str nx1 nx2 n)) ⟨0, 0, 0, 0⟩) := by
  unfold riemann1 pos str
  simp only [(slot_high n k).1, (slot_high n k).2]
  rw [cartesianLine_eq _ _ h1 _ _ _ (by omega), readState_eq]
  simp only [if_neg (show ¬ nx1 - 1 + 1 < nx1 by omega), slot, if_true]
  rfl

private theorem r3_left {v i j k : Nat} (hi : i + 1 < nx2) :
    riemann3 n nx2 (view q2 nx2 nx1 (2 * n)) old v i j (n + k) =
      field v (ausmKernel 1 (readState q2 (pos nx1 n i j (n + k)) (str nx1 nx2 n)) (readState q2 (pos nx1 n (i + 1) j k) (str nx1 nx2 n))).1 := by
  unfold riemann3 pos str
  simp only [(slot_high n k).1, (slot_high n k).2]
  rw [cartesianLine_eq _ _ (by omega) _ _ _ (by omega), readState_eq, readState_eq]
  simp only [if_pos hi, slot, if_true]
  rfl

private theorem r3_right {v i j k : Nat} (hi : i + 1 < nx2) (hk : k < n) :
    riemann3 n nx2 (view q2 nx2 nx1 (2 * n)) old v (i + 1) j k =
      field v (ausmKernel 1 (readState q2 (pos nx1 n i j (n + k)) (str nx1 nx2 n)) (readState q2 (pos nx1 n (i + 1) j k) (str nx1 nx2 n))).2 := by
  unfold riemann3 pos str
  simp only [(slot_low n hk).1, (slot_low n hk).2]
  rw [cartesianLine_eq _ _ (by omega) _ _ _ hi, readState_eq, readState_eq]
  simp only [Nat.add_eq_zero_iff, one_ne_zero, and_false, if_false, Nat.add_sub_cancel, slot, if_true]
  rfl

private theorem r3_bottom {v j k : Nat} (h2 : 0 < nx2) (hk : k < n) :
    riemann3 n nx2 (view q2 nx2 nx1 (2 * n)) old v 0 j k =
      field v (boundaryKernel 1 (readState q2 (pos nx1 n 0 j k) (str nx1 nx2 n)) ⟨0, 0, 0, 0⟩) := by
  unfold riemann3 pos str
  simp only [(slot_low n hk).1, (slot_low n hk).2]
  rw [cartesianLine_eq _ _ h2 _ _ _ h2, readState_eq]
  rfl

private theorem r3_top {v j k : Nat} (h2 : 0 < nx2) :
    riemann3 n nx2 (view q2 nx2 nx1 (2 * n)) old v (nx2 - 1) j (n + k) =
      field v (boundaryKernel 1 (readState q2 (pos nx1 n (nx2 - 1) j (n + k)) (str nx1 nx2 n)) ⟨0, 0, 0, 0⟩) := by
  unfold riemann3 pos str
  simp only [(slot_high n k).1, (slot_high n k).2]
  rw [cartesianLine_eq _ _ h2 _ _ _ (by omega), readState_eq]
  simp only [if_neg (show ¬ nx2 - 1 + 1 < nx2 by omega), slot, if_true]
  rfl


/-- a program in one of these loops: a face, a wall, or both walls of a line -/
private inductive Prog : List Op → Prop
  | nil : Prog []
  | face1 (i j k : Nat) (hi : i < nx2) (hj : j + 1 < nx1) (hk : k < n) :
      Prog (faceOps q1 0 (pos nx1 n i j (n + k)) (pos nx1 n i (j + 1) k) (str nx1 nx2 n))
  | face2 (i j k : Nat) (hi : i + 1 < nx2) (hj : j < nx1) (hk : k < n) :
      Prog (faceOps q2 1 (pos nx1 n i j (n + k)) (pos nx1 n (i + 1) j k) (str nx1 nx2 n))
  | west (i k : Nat) (hi : i < nx2) (hk : k < n) : Prog (wallOps q1 0 (pos nx1 n i 0 k) (str nx1 nx2 n))
  | east (i k : Nat) (hi : i < nx2) (hk : k < n) : Prog (wallOps q1 0 (pos nx1 n i (nx1 - 1) (n + k)) (str nx1 nx2 n))
  | bottom (j k : Nat) (hj : j < nx1) (hk : k < n) : Prog (wallOps q2 1 (pos nx1 n 0 j k) (str nx1 nx2 n))
  | top (j k : Nat) (hj : j < nx1) (hk : k < n) : Prog (wallOps q2 1 (pos nx1 n (nx2 - 1) j (n + k)) (str nx1 nx2 n))
  | both (p r : List Op) (hp : Prog p) (hr : Prog r) : Prog (p ++ r)

variable {q1 q2 nx1 nx2 n}

private theorem pos_lt {i j k : Nat} (hi : i < nx2) (hj : j < nx1) (hk : k < 2 * n) : pos nx1 n i j k < str nx1 nx2 n := index_lt hi hj hk

private theorem pos_inj {i j k i' j' k' : Nat} (hj : j < nx1) (hk : k < 2 * n) (hj' : j' < nx1) (hk' : k' < 2 * n)
    (h : pos nx1 n i j k = pos nx1 n i' j' k') : i = i' ∧ j = j' ∧ k = k' := index_inj hj hk hj' hk' h

/-- what the two arrays of interface fluxes are to contain -/
private noncomputable def want (q1 q2 : Nat → ℝ) (nx1 nx2 n : Nat) (old : Nat → Arr) (d v i j k : Nat) : ℝ :=
  if d = 0 then riemann1 n nx1 (view q1 nx2 nx1 (2 * n)) (old 0) v i j k else riemann3 n nx2 (view q2 nx2 nx1 (2 * n)) (old 1) v i j k

private theorem prog_target (old : Nat → Arr) {p : List Op} (hp : Prog q1 q2 nx1 nx2 n p) {d v i j k : Nat} (hv : v < 4) (hi : i < nx2)
    (hj : j < nx1) (hk : k < 2 * n) :
    Writes p ⟨d, v * str nx1 nx2 n + pos nx1 n i j k⟩ (want q1 q2 nx1 nx2 n old d v i j k) ∨
      Leaves p ⟨d, v * str nx1 nx2 n + pos nx1 n i j k⟩ := by
  induction hp with
  | nil => exact Or.inr (leaves_nil _)
  | face1 i' j' k' hi' hj' hk' =>
    refine face_target (pos_lt hi' (by omega) (by omega)) (pos_lt hi' (by omega) (by omega)) ?_ hv (pos_lt hi hj hk) ?_ ?_
    · intro h
      have := pos_inj (by omega) (by omega) (by omega) (by omega) h
      omega
    · rintro rfl h
      obtain ⟨rfl, rfl, rfl⟩ := pos_inj hj hk (by omega) (by omega) h
      exact r1_left q1 nx1 nx2 n (old 0) hj'
    · rintro rfl h
      obtain ⟨rfl, rfl, rfl⟩ := pos_inj hj hk (by omega) (by omega) h
      exact r1_right q1 nx1 nx2 n (old 0) hj' hk'
  | face2 i' j' k' hi' hj' hk' =>
    refine face_target (pos_lt (by omega) (by omega) (by omega)) (pos_lt hi' (by omega) (by omega)) ?_ hv (pos_lt hi hj hk) ?_ ?_
    · intro h
      have := pos_inj (by omega) (by omega) (by omega) (by omega) h
      omega
    · rintro rfl h
      obtain ⟨rfl, rfl, rfl⟩ := pos_inj hj hk (by omega) (by omega) h
      exact r3_left q2 nx1 nx2 n (old 1) hi'
    · rintro rfl h
      obtain ⟨rfl, rfl, rfl⟩ := pos_inj hj hk (by omega) (by omega) h
      exact r3_right q2 nx1 nx2 n (old 1) hi' hk'
  | west i' k' hi' hk' =>
    refine wall_target (pos_lt hi' (by omega) (by omega)) hv (pos_lt hi hj hk) ?_
    rintro rfl h
    obtain ⟨rfl, rfl, rfl⟩ := pos_inj hj hk (by omega) (by omega) h
    exact r1_west q1 nx1 nx2 n (old 0) hj hk'
  | east i' k' hi' hk' =>
    refine wall_target (pos_lt hi' (by omega) (by omega)) hv (pos_lt hi hj hk) ?_
    rintro rfl h
    obtain ⟨rfl, rfl, rfl⟩ := pos_inj hj hk (by omega) (by omega) h
    exact r1_east q1 nx1 nx2 n (old 0) (by omega)
  | bottom j' k' hj' hk' =>
    refine wall_target (pos_lt (by omega) hj' (by omega)) hv (pos_lt hi hj hk) ?_
    rintro rfl h
    obtain ⟨rfl, rfl, rfl⟩ := pos_inj hj hk (by omega) (by omega) h
    exact r3_bottom q2 nx1 nx2 n (old 1) hi hk'
  | top j' k' hj' hk' =>
    refine wall_target (pos_lt (by omega) hj' (by omega)) hv (pos_lt hi hj hk) ?_
    rintro rfl h
    obtain ⟨rfl, rfl, rfl⟩ := pos_inj hj hk (by omega) (by omega) h
    exact r3_top q2 nx1 nx2 n (old 1) (by omega)
  | both p r _ _ h1 h2 => exact append_target h1 h2

/-- the operations of such a program are inside the two arrays -/
private theorem prog_uses {p : List Op} (hp : Prog q1 q2 nx1 nx2 n p) (h1 : 0 < nx1) (h2 : 0 < nx2) :
    ∀ o ∈ p, ∀ a ∈ o.uses, a.arr < 2 ∧ a.off < 4 * str nx1 nx2 n := by
  have key : ∀ {v x : Nat}, v < 4 → x < str nx1 nx2 n → v * str nx1 nx2 n + x < 4 * str nx1 nx2 n := fun {v x} hv hx =>
    calc v * str nx1 nx2 n + x < (v + 1) * str nx1 nx2 n := by rw [Nat.add_mul, Nat.one_mul]; omega
      _ ≤ 4 * str nx1 nx2 n := Nat.mul_le_mul_right _ hv
  induction hp with
  | nil => intro o ho; cases ho
  | face1 i j k hi hj hk =>
    intro o ho a ha
    obtain ⟨v, hv, rfl | rfl⟩ := faceOps_uses ho ha
    · exact ⟨by simp, key hv (pos_lt hi (by omega) (by omega))⟩
    · exact ⟨by simp, key hv (pos_lt hi (by omega) (by omega))⟩
  | face2 i j k hi hj hk =>
    intro o ho a ha
    obtain ⟨v, hv, rfl | rfl⟩ := faceOps_uses ho ha
    · exact ⟨by simp, key hv (pos_lt (by omega) (by omega) (by omega))⟩
    · exact ⟨by simp, key hv (pos_lt hi (by omega) (by omega))⟩
  | west i k hi hk =>
    intro o ho a ha
    obtain ⟨v, hv, rfl⟩ := storeState_uses ho ha
    exact ⟨by simp, key hv (pos_lt hi h1 (by omega))⟩
  | east i k hi hk =>
    intro o ho a ha
    obtain ⟨v, hv, rfl⟩ := storeState_uses ho ha
    exact ⟨by simp, key hv (pos_lt hi (by omega) (by omega))⟩
  | bottom j k hj hk =>
    intro o ho a ha
    obtain ⟨v, hv, rfl⟩ := storeState_uses ho ha
    exact ⟨by simp, key hv (pos_lt h2 hj (by omega))⟩
  | top j k hj hk =>
    intro o ho a ha
    obtain ⟨v, hv, rfl⟩ := storeState_uses ho ha
    exact ⟨by simp, key hv (pos_lt (by omega) hj (by omega))⟩
  | both p r _ _ i1 i2 =>
    intro o ho
    rcases List.mem_append.1 ho with ho | ho
    · exact i1 o ho
    · exact i2 o ho

private theorem prog_writes_left {old : Nat → Arr} {p r : List Op} {d v i j k : Nat} (hr : Prog q1 q2 nx1 nx2 n r) (hv : v < 4) (hi : i < nx2)
    (hj : j < nx1) (hk : k < 2 * n) (h : Writes p ⟨d, v * str nx1 nx2 n + pos nx1 n i j k⟩ (want q1 q2 nx1 nx2 n old d v i j k)) :
    Writes (p ++ r) ⟨d, v * str nx1 nx2 n + pos nx1 n i j k⟩ (want q1 q2 nx1 nx2 n old d v i j k) := by
  intro m
  rw [exec_append]
  rcases prog_target old hr (d := d) hv hi hj hk with h2 | h2
  · exact h2 _
  · rw [h2]; exact h m

private theorem writes_right {p r : List Op} {a : Addr} {x : ℝ} (h : Writes r a x) : Writes (p ++ r) a x := by
  intro m
  rw [exec_append]
  exact h _

/-- programs that contain every face and every wall -/
private structure Complete (q1 q2 : Nat → ℝ) (nx1 nx2 n : Nat) (ps : List (List Op)) : Prop where
  prog : ∀ p ∈ ps, Prog q1 q2 nx1 nx2 n p
  face1 : ∀ i j k, i < nx2 → j + 1 < nx1 → k < n →
    faceOps q1 0 (pos nx1 n i j (n + k)) (pos nx1 n i (j + 1) k) (str nx1 nx2 n) ∈ ps
  face2 : ∀ i j k, i + 1 < nx2 → j < nx1 → k < n →
    faceOps q2 1 (pos nx1 n i j (n + k)) (pos nx1 n (i + 1) j k) (str nx1 nx2 n) ∈ ps
  wall1 : ∀ i k, i < nx2 → k < n →
    (wallOps q1 0 (pos nx1 n i 0 k) (str nx1 nx2 n) ∈ ps ∧ wallOps q1 0 (pos nx1 n i (nx1 - 1) (n + k)) (str nx1 nx2 n) ∈ ps) ∨
    wallOps q1 0 (pos nx1 n i 0 k) (str nx1 nx2 n) ++ wallOps q1 0 (pos nx1 n i (nx1 - 1) (n + k)) (str nx1 nx2 n) ∈ ps
  wall2 : ∀ j k, j < nx1 → k < n →
    (wallOps q2 1 (pos nx1 n 0 j k) (str nx1 nx2 n) ∈ ps ∧ wallOps q2 1 (pos nx1 n (nx2 - 1) j (n + k)) (str nx1 nx2 n) ∈ ps) ∨
    wallOps q2 1 (pos nx1 n 0 j k) (str nx1 nx2 n) ++ wallOps q2 1 (pos nx1 n (nx2 - 1) j (n + k)) (str nx1 nx2 n) ∈ ps

private theorem complete_hits {ps : List (List Op)} (hc : Complete q1 q2 nx1 nx2 n ps) (old : Nat → Arr) {d v i j k : Nat} (hd : d < 2) (hv : v < 4)
    (hi : i < nx2) (hj : j < nx1) (hk : k < 2 * n) :
    ∃ p ∈ ps, Writes p ⟨d, v * str nx1 nx2 n + pos nx1 n i j k⟩ (want q1 q2 nx1 nx2 n old d v i j k) := by
  have hd' : d = 0 ∨ d = 1 := by omega
  by_cases hkn : k < n
  · rcases hd' with rfl | rfl
    · rcases Nat.eq_zero_or_pos j with rfl | hj0
      · have hw : Writes (wallOps q1 0 (pos nx1 n i 0 k) (str nx1 nx2 n)) ⟨0, v * str nx1 nx2 n + pos nx1 n i 0 k⟩
            (want q1 q2 nx1 nx2 n old 0 v i 0 k) := by
          have e : want q1 q2 nx1 nx2 n old 0 v i 0 k = _ := r1_west q1 nx1 nx2 n (old 0) hj hkn
          rw [e]
          exact storeState_writes _ (pos_lt hi hj hk) hv
        rcases hc.wall1 i k hi hkn with h | h
        · exact ⟨_, h.1, hw⟩
        · exact ⟨_, h, prog_writes_left (.east i k hi hkn) hv hi hj hk hw⟩
      · obtain ⟨j, rfl⟩ : ∃ j', j = j' + 1 := ⟨j - 1, by omega⟩
        refine ⟨_, hc.face1 i j k hi hj hkn, ?_⟩
        have e : want q1 q2 nx1 nx2 n old 0 v i (j + 1) k = _ := r1_right q1 nx1 nx2 n (old 0) hj hkn
        rw [e]
        refine (faceOps_writes (pos_lt hi (by omega) (by omega)) (pos_lt hi hj hk) ?_ hv).2
        intro h
        have := pos_inj (by omega) (by omega) (by omega) (by omega) h
        omega
    · rcases Nat.eq_zero_or_pos i with rfl | hi0
      · have hw : Writes (wallOps q2 1 (pos nx1 n 0 j k) (str nx1 nx2 n)) ⟨1, v * str nx1 nx2 n + pos nx1 n 0 j k⟩
            (want q1 q2 nx1 nx2 n old 1 v 0 j k) := by
          have e : want q1 q2 nx1 nx2 n old 1 v 0 j k = _ := r3_bottom q2 nx1 nx2 n (old 1) hi hkn
          rw [e]
          exact storeState_writes _ (pos_lt hi hj hk) hv
        rcases hc.wall2 j k hj hkn with h | h
        · exact ⟨_, h.1, hw⟩
        · exact ⟨_, h, prog_writes_left (.top j k hj hkn) hv hi hj hk hw⟩
      · obtain ⟨i, rfl⟩ : ∃ i', i = i' + 1 := ⟨i - 1, by omega⟩
        refine ⟨_, hc.face2 i j k hi hj hkn, ?_⟩
        have e : want q1 q2 nx1 nx2 n old 1 v (i + 1) j k = _ := r3_right q2 nx1 nx2 n (old 1) hi hkn
        rw [e]
        refine (faceOps_writes (pos_lt (by omega) hj (by omega)) (pos_lt hi hj hk) ?_ hv).2
        intro h
        have := pos_inj (by omega) (by omega) (by omega) (by omega) h
        omega
  · obtain ⟨k, rfl⟩ : ∃ k', k = n + k' := ⟨k - n, by omega⟩
    have hkn' : k < n := by omega
    rcases hd' with rfl | rfl
    · by_cases hjl : j + 1 < nx1
      · refine ⟨_, hc.face1 i j k hi hjl hkn', ?_⟩
        have e : want q1 q2 nx1 nx2 n old 0 v i j (n + k) = _ := r1_left q1 nx1 nx2 n (old 0) hjl
        rw [e]
        refine (faceOps_writes (pos_lt hi hj hk) (pos_lt hi hjl (by omega)) ?_ hv).1
        intro h
        have := pos_inj (by omega) (by omega) (by omega) (by omega) h
        omega
      · obtain rfl : j = nx1 - 1 := by omega
        have hw : Writes (wallOps q1 0 (pos nx1 n i (nx1 - 1) (n + k)) (str nx1 nx2 n))
            ⟨0, v * str nx1 nx2 n + pos nx1 n i (nx1 - 1) (n + k)⟩ (want q1 q2 nx1 nx2 n old 0 v i (nx1 - 1) (n + k)) := by
          have e : want q1 q2 nx1 nx2 n old 0 v i (nx1 - 1) (n + k) = _ := r1_east q1 nx1 nx2 n (old 0) (by omega)
          rw [e]
          exact storeState_writes _ (pos_lt hi hj hk) hv
        rcases hc.wall1 i k hi hkn' with h | h
        · exact ⟨_, h.2, hw⟩
        · exact ⟨_, h, writes_right hw⟩
    · by_cases hil : i + 1 < nx2
      · refine ⟨_, hc.face2 i j k hil hj hkn', ?_⟩
        have e : want q1 q2 nx1 nx2 n old 1 v i j (n + k) = _ := r3_left q2 nx1 nx2 n (old 1) hil
        rw [e]
        refine (faceOps_writes (pos_lt hi hj hk) (pos_lt hil hj (by omega)) ?_ hv).1
        intro h
        have := pos_inj (by omega) (by omega) (by omega) (by omega) h
        omega
      · obtain rfl : i = nx2 - 1 := by omega
        have hw : Writes (wallOps q2 1 (pos nx1 n (nx2 - 1) j (n + k)) (str nx1 nx2 n))
            ⟨1, v * str nx1 nx2 n + pos nx1 n (nx2 - 1) j (n + k)⟩ (want q1 q2 nx1 nx2 n old 1 v (nx2 - 1) j (n + k)) := by
          have e : want q1 q2 nx1 nx2 n old 1 v (nx2 - 1) j (n + k) = _ := r3_top q2 nx1 nx2 n (old 1) (by omega)
          rw [e]
          exact storeState_writes _ (pos_lt hi hj hk) hv
        rcases hc.wall2 j k hj hkn' with h | h
        · exact ⟨_, h.2, hw⟩
        · exact ⟨_, h, writes_right hw⟩

private theorem complete_exec {ps : List (List Op)} (hc : Complete q1 q2 nx1 nx2 n ps) (old : Nat → Arr) (m : Memory) {d v i j k : Nat} (hd : d < 2)
    (hv : v < 4) (hi : i < nx2) (hj : j < nx1) (hk : k < 2 * n) :
    exec m ps.flatten ⟨d, rowMajor nx2 nx1 (2 * n) v i j k⟩ = want q1 q2 nx1 nx2 n old d v i j k := by
  rw [rowMajor_eq]
  exact exec_flatten_writes (fun p hp => prog_target old (hc.prog p hp) hv hi hj hk) m (Or.inr (complete_hits hc old hd hv hi hj hk))

private theorem prog_leaves {p : List Op} (hp : Prog q1 q2 nx1 nx2 n p) (h1 : 0 < nx1) (h2 : 0 < nx2) {a : Addr}
    (ha : ¬ (a.arr < 2 ∧ a.off < 4 * str nx1 nx2 n)) : Leaves p a :=
  leaves_of_uses fun o ho hu => ha (prog_uses hp h1 h2 o ho a hu)

private theorem complete_rest {ps : List (List Op)} (hc : Complete q1 q2 nx1 nx2 n ps) (h1 : 0 < nx1) (h2 : 0 < nx2) (m : Memory) {a : Addr}
    (ha : ¬ (a.arr < 2 ∧ a.off < 4 * str nx1 nx2 n)) : exec m ps.flatten a = m a :=
  exec_flatten_leaves (fun p hp => prog_leaves (hc.prog p hp) h1 h2 ha) m

/-- two complete lists of programs leave the same memory -/
private theorem complete_eq {ps ps' : List (List Op)} (hc : Complete q1 q2 nx1 nx2 n ps) (hc' : Complete q1 q2 nx1 nx2 n ps') (h1 : 0 < nx1)
    (h2 : 0 < nx2) (m : Memory) : exec m ps.flatten = exec m ps'.flatten := by
  funext a
  by_cases ha : a.arr < 2 ∧ a.off < 4 * str nx1 nx2 n
  · obtain ⟨d, o⟩ := a
    obtain ⟨v, hv, i, hi, j, hj, k, hk, e⟩ := rowMajor_surj ha.2
    dsimp only at e
    subst e
    rw [complete_exec hc (fun _ _ _ _ _ => 0) m ha.1 hv hi hj hk, complete_exec hc' (fun _ _ _ _ _ => 0) m ha.1 hv hi hj hk]
  · rw [complete_rest hc h1 h2 m ha, complete_rest hc' h1 h2 m ha]

private theorem cpu_complete (h1 : 0 < nx1) (h2 : 0 < nx2) : Complete q1 q2 nx1 nx2 n (riemannCpu q1 q2 nx1 nx2 n) := by
  have e : ∀ i j k, cIndex 0 i j k nx2 nx1 (2 * n) = pos nx1 n i j k := fun i j k => cIndex_eq ..
  have es : nx1 * nx2 * (2 * n) = str nx1 nx2 n := rfl
  unfold riemannCpu
  simp only [e, es]
  refine ⟨fun p hp => ?_, fun i j k hi hj hk => ?_, fun i j k hi hj hk => ?_, fun i k hi hk => Or.inl ⟨?_, ?_⟩,
    fun j k hj hk => Or.inl ⟨?_, ?_⟩⟩
  · rcases List.mem_append.1 hp with hp | hp
    · rcases List.mem_append.1 hp with hp | hp
      · obtain ⟨i, hi, hp⟩ := List.mem_flatMap.1 hp
        obtain ⟨j, hj, hp⟩ := List.mem_flatMap.1 hp
        rw [List.mem_range] at hi hj
        rcases List.mem_append.1 hp with hp | hp
        · split_ifs at hp with hc
          · obtain ⟨k, hk, rfl⟩ := List.mem_map.1 hp
            exact .face1 i j k hi hc (List.mem_range.1 hk)
          · cases hp
        · split_ifs at hp with hc
          · obtain ⟨k, hk, rfl⟩ := List.mem_map.1 hp
            exact .face2 i j k hc hj (List.mem_range.1 hk)
          · cases hp
      · obtain ⟨i, hi, hp⟩ := List.mem_flatMap.1 hp
        obtain ⟨j, hj, hp⟩ := List.mem_flatMap.1 hp
        rw [List.mem_range] at hi hj
        simp only [List.mem_cons, List.not_mem_nil, or_false] at hp
        rcases hp with rfl | rfl
        · exact .west i j hi hj
        · rw [Nat.add_comm j n]; exact .east i j hi hj
    · obtain ⟨i, hi, hp⟩ := List.mem_flatMap.1 hp
      obtain ⟨j, hj, hp⟩ := List.mem_flatMap.1 hp
      rw [List.mem_range] at hi hj
      simp only [List.mem_cons, List.not_mem_nil, or_false] at hp
      rcases hp with rfl | rfl
      · exact .bottom i j hi hj
      · rw [Nat.add_comm j n]; exact .top i j hi hj
  · refine List.mem_append_left _ (List.mem_append_left _ (List.mem_flatMap.2 ⟨i, List.mem_range.2 hi, List.mem_flatMap.2 ⟨j,
      List.mem_range.2 (by omega), List.mem_append_left _ ?_⟩⟩))
    rw [if_pos hj]
    exact List.mem_map.2 ⟨k, List.mem_range.2 hk, rfl⟩
  · refine List.mem_append_left _ (List.mem_append_left _ (List.mem_flatMap.2 ⟨i, List.mem_range.2 (by omega), List.mem_flatMap.2 ⟨j,
      List.mem_range.2 hj, List.mem_append_right _ ?_⟩⟩))
    rw [if_pos hi]
    exact List.mem_map.2 ⟨k, List.mem_range.2 hk, rfl⟩
  · refine List.mem_append_left _ (List.mem_append_right _ (List.mem_flatMap.2 ⟨i, List.mem_range.2 hi, List.mem_flatMap.2 ⟨k,
      List.mem_range.2 hk, ?_⟩⟩))
    simp
  · refine List.mem_append_left _ (List.mem_append_right _ (List.mem_flatMap.2 ⟨i, List.mem_range.2 hi, List.mem_flatMap.2 ⟨k,
      List.mem_range.2 hk, ?_⟩⟩))
    rw [Nat.add_comm k n]
    exact List.mem_cons_of_mem _ List.mem_cons_self
  · refine List.mem_append_right _ (List.mem_flatMap.2 ⟨j, List.mem_range.2 hj, List.mem_flatMap.2 ⟨k, List.mem_range.2 hk, ?_⟩⟩)
    simp
  · refine List.mem_append_right _ (List.mem_flatMap.2 ⟨j, List.mem_range.2 hj, List.mem_flatMap.2 ⟨k, List.mem_range.2 hk, ?_⟩⟩)
    rw [Nat.add_comm k n]
    exact List.mem_cons_of_mem _ List.mem_cons_self

private theorem gpu_complete : Complete q1 q2 nx1 nx2 n (riemannGpu q1 q2 nx1 nx2 n).flatten := by
  have e : ∀ i j k, cIndex 0 i j k nx2 nx1 (2 * n) = pos nx1 n i j k := fun i j k => cIndex_eq ..
  have es : nx1 * nx2 * (2 * n) = str nx1 nx2 n := rfl
  unfold riemannGpu
  simp only [e, es, List.flatten_cons, List.flatten_nil, List.append_nil]
  refine ⟨fun p hp => ?_, fun i j k hi hj hk => ?_, fun i j k hi hj hk => ?_, fun i k hi hk => Or.inr ?_, fun j k hj hk => Or.inr ?_⟩
  · rcases List.mem_append.1 hp with hp | hp
    · rcases mem_launch3 hp with rfl | ⟨x, hx, y, hy, z, hz, rfl⟩
      · exact .nil
      · exact .face1 x y z hx (by omega) hz
    · rcases List.mem_append.1 hp with hp | hp
      · rcases mem_launch3 hp with rfl | ⟨x, hx, y, hy, z, hz, rfl⟩
        · exact .nil
        · exact .face2 x y z (by omega) hy hz
      · rcases List.mem_append.1 hp with hp | hp
        · rcases mem_launch2 hp with rfl | ⟨x, hx, y, hy, rfl⟩
          · exact .nil
          · exact .both _ _ (.west x y hx hy) (.east x y hx hy)
        · rcases mem_launch2 hp with rfl | ⟨x, hx, y, hy, rfl⟩
          · exact .nil
          · exact .both _ _ (.bottom x y hx hy) (.top x y hx hy)
  · exact List.mem_append_left _ (launch3_mem (by decide) (by decide) (by decide)
      (fun ix iy iz => faceOps q1 0 (pos nx1 n ix iy (n + iz)) (pos nx1 n ix (iy + 1) iz) (str nx1 nx2 n)) hi (by omega) hk)
  · exact List.mem_append_right _ (List.mem_append_left _ (launch3_mem (by decide) (by decide) (by decide)
      (fun ix iy iz => faceOps q2 1 (pos nx1 n ix iy (n + iz)) (pos nx1 n (ix + 1) iy iz) (str nx1 nx2 n)) (by omega) hj hk))
  · exact List.mem_append_right _ (List.mem_append_right _ (List.mem_append_left _ (launch2_mem (by decide) (by decide)
      (fun ix iy => wallOps q1 0 (pos nx1 n ix 0 iy) (str nx1 nx2 n) ++ wallOps q1 0 (pos nx1 n ix (nx1 - 1) (n + iy)) (str nx1 nx2 n)) hi hk)))
  · exact List.mem_append_right _ (List.mem_append_right _ (List.mem_append_right _ (launch2_mem (by decide) (by decide)
      (fun ix iy => wallOps q2 1 (pos nx1 n 0 ix iy) (str nx1 nx2 n) ++ wallOps q2 1 (pos nx1 n (nx2 - 1) ix (n + iy)) (str nx1 nx2 n)) hj hk)))

private theorem apart_faces {q : Nat → ℝ} {dir l r l' r' s : Nat} (hl : l < s) (hr : r < s) (hl' : l' < s) (hr' : r' < s)
    (h1 : l ≠ l') (h2 : l ≠ r') (h3 : r ≠ l') (h4 : r ≠ r') : Apart (faceOps q dir l r s) (faceOps q dir l' r' s) := by
  intro a ha b hb x hx hx'
  obtain ⟨v, -, rfl | rfl⟩ := faceOps_uses ha hx <;> obtain ⟨w, -, h | h⟩ := faceOps_uses hb hx' <;> rw [Addr.mk.injEq] at h
  · exact h1 (var_split hl hl' h.2).2
  · exact h2 (var_split hl hr' h.2).2
  · exact h3 (var_split hr hl' h.2).2
  · exact h4 (var_split hr hr' h.2).2

private theorem apart_walls {q : Nat → ℝ} {dir l r l' r' s : Nat} (hl : l < s) (hr : r < s) (hl' : l' < s) (hr' : r' < s)
    (h1 : l ≠ l') (h2 : l ≠ r') (h3 : r ≠ l') (h4 : r ≠ r') :
    Apart (wallOps q dir l s ++ wallOps q dir r s) (wallOps q dir l' s ++ wallOps q dir r' s) := by
  intro a ha b hb x hx hx'
  rcases List.mem_append.1 ha with ha | ha <;> rcases List.mem_append.1 hb with hb | hb <;>
    obtain ⟨v, -, rfl⟩ := storeState_uses ha hx <;> obtain ⟨w, -, h⟩ := storeState_uses hb hx' <;> rw [Addr.mk.injEq] at h
  · exact h1 (var_split hl hl' h.2).2
  · exact h2 (var_split hl hr' h.2).2
  · exact h3 (var_split hr hl' h.2).2
  · exact h4 (var_split hr hr' h.2).2

private theorem gpu_apart (h1 : 0 < nx1) (h2 : 0 < nx2) : ∀ l ∈ riemannGpu q1 q2 nx1 nx2 n, l.Pairwise Apart := by
  have e : ∀ i j k, cIndex 0 i j k nx2 nx1 (2 * n) = pos nx1 n i j k := fun i j k => cIndex_eq ..
  have es : nx1 * nx2 * (2 * n) = str nx1 nx2 n := rfl
  unfold riemannGpu
  simp only [e, es]
  intro l hl
  simp only [List.mem_cons, List.not_mem_nil, or_false] at hl
  have ne : ∀ {i j k i' j' k' : Nat}, j < nx1 → k < 2 * n → j' < nx1 → k' < 2 * n → ¬ (i = i' ∧ j = j' ∧ k = k') →
      pos nx1 n i j k ≠ pos nx1 n i' j' k' := fun hj hk hj' hk' h he => h (pos_inj hj hk hj' hk' he)
  rcases hl with rfl | rfl | rfl | rfl
  · apply launch3_pairwise
    intro x hx y hy z hz x' hx' y' hy' z' hz' h
    simp only [ne_eq, Prod.mk.injEq] at h
    apply apart_faces
    iterate 4 exact pos_lt (by omega) (by omega) (by omega)
    all_goals exact ne (by omega) (by omega) (by omega) (by omega) (by omega)
  · apply launch3_pairwise
    intro x hx y hy z hz x' hx' y' hy' z' hz' h
    simp only [ne_eq, Prod.mk.injEq] at h
    apply apart_faces
    iterate 4 exact pos_lt (by omega) (by omega) (by omega)
    all_goals exact ne (by omega) (by omega) (by omega) (by omega) (by omega)
  · apply launch2_pairwise
    intro x hx y hy x' hx' y' hy' h
    simp only [ne_eq, Prod.mk.injEq] at h
    apply apart_walls
    iterate 4 exact pos_lt (by omega) (by omega) (by omega)
    all_goals exact ne (by omega) (by omega) (by omega) (by omega) (by omega)
  · apply launch2_pairwise
    intro x hx y hy x' hx' y' hy' h
    simp only [ne_eq, Prod.mk.injEq] at h
    apply apart_walls
    iterate 4 exact pos_lt (by omega) (by omega) (by omega)
    all_goals exact ne (by omega) (by omega) (by omega) (by omega) (by omega)

end Riemann

/-- an operation of an interleaving is one of a thread -/
private theorem interleaves_mem {ps : List (List Op)} {tr : List Op} (h : Interleaves ps tr) : ∀ o ∈ tr, ∃ p ∈ ps, o ∈ p := by
  induction h with
  | done => intro o ho; cases ho
  | step before op rest after tr _ ih =>
    intro o ho
    rcases List.mem_cons.1 ho with rfl | ho
    · exact ⟨o :: rest, by simp, List.mem_cons_self⟩
    · obtain ⟨p, hp, hop⟩ := ih o ho
      rcases List.mem_append.1 hp with hp | hp
      · exact ⟨p, List.mem_append_left _ hp, hop⟩
      · rcases List.mem_cons.1 hp with rfl | hp
        · exact ⟨op :: p, by simp, List.mem_cons_of_mem _ hop⟩
        · exact ⟨p, by simp [hp], hop⟩

private theorem executes_mem {ls : List (List (List Op))} {tr : List Op} (h : Executes ls tr) : ∀ o ∈ tr, ∃ p ∈ ls.flatten, o ∈ p := by
  induction h with
  | nil => intro o ho; cases ho
  | cons l ls t ts h1 _ ih =>
    intro o ho
    rcases List.mem_append.1 ho with ho | ho
    · obtain ⟨p, hp, hop⟩ := interleaves_mem h1 o ho
      exact ⟨p, by simp [hp], hop⟩
    · obtain ⟨p, hp, hop⟩ := ih o ho
      exact ⟨p, by rw [List.flatten_cons]; exact List.mem_append_right _ hp, hop⟩

/-! ## Theorems -/

/-- **C79.**  After the loops of the processor, and after any execution of the threads of the graphics card, the two arrays of interface fluxes
contain the Riemann and wall fluxes of the model of the Cartesian equations, in every entry, and nothing else has changed. -/
theorem C79_interface_fluxes (q1 q2 : Nat → ℝ) {nx1 nx2 n : Nat} (h1 : 0 < nx1) (h2 : 0 < nx2) {tr : List Op}
    (ht : tr = (riemannCpu q1 q2 nx1 nx2 n).flatten ∨ Executes (riemannGpu q1 q2 nx1 nx2 n) tr) (m : Memory) :
    (∀ v < 4, ∀ i < nx2, ∀ j < nx1, ∀ k < 2 * n, ∀ old : Arr,
      exec m tr ⟨0, rowMajor nx2 nx1 (2 * n) v i j k⟩ = riemann1 n nx1 (view q1 nx2 nx1 (2 * n)) old v i j k ∧
      exec m tr ⟨1, rowMajor nx2 nx1 (2 * n) v i j k⟩ = riemann3 n nx2 (view q2 nx2 nx1 (2 * n)) old v i j k) ∧
    ∀ a : Addr, ¬ (a.arr < 2 ∧ a.off < 4 * (nx1 * nx2 * (2 * n))) → exec m tr a = m a := by
  obtain ⟨ps, hc, e⟩ : ∃ ps, Complete q1 q2 nx1 nx2 n ps ∧ exec m tr = exec m ps.flatten := by
    rcases ht with rfl | ht
    · exact ⟨_, cpu_complete h1 h2, rfl⟩
    · exact ⟨_, gpu_complete, executes_exec ht (gpu_apart h1 h2) m⟩
  rw [e]
  refine ⟨fun v hv i hi j hj k hk old => ⟨?_, ?_⟩, fun a ha => complete_rest hc h1 h2 m ha⟩
  · exact complete_exec hc (fun _ => old) m (by omega) hv hi hj hk
  · exact complete_exec hc (fun _ => old) m (by omega) hv hi hj hk

/-- **C79.**  Card and processor leave the same memory, whatever the order of the threads. -/
theorem C79_interface_same (q1 q2 : Nat → ℝ) {nx1 nx2 n : Nat} (h1 : 0 < nx1) (h2 : 0 < nx2) {tr : List Op}
    (ht : Executes (riemannGpu q1 q2 nx1 nx2 n) tr) (m : Memory) : exec m tr = exec m (riemannCpu q1 q2 nx1 nx2 n).flatten := by
  rw [executes_exec ht (gpu_apart h1 h2)]
  exact complete_eq gpu_complete (cpu_complete h1 h2) h1 h2 m

/-- **C79.**  Every access to the written arrays, of the processor or of a thread, is inside the two arrays of four variables. -/
theorem C79_interface_bounds (q1 q2 : Nat → ℝ) {nx1 nx2 n : Nat} (h1 : 0 < nx1) (h2 : 0 < nx2) {tr : List Op}
    (ht : tr = (riemannCpu q1 q2 nx1 nx2 n).flatten ∨ Executes (riemannGpu q1 q2 nx1 nx2 n) tr) :
    ∀ o ∈ tr, ∀ a ∈ o.uses, a.arr < 2 ∧ a.off < 4 * (nx1 * nx2 * (2 * n)) := by
  intro o ho
  rcases ht with rfl | ht
  · obtain ⟨p, hp, hop⟩ := List.mem_flatten.1 ho
    exact prog_uses ((cpu_complete h1 h2).prog p hp) h1 h2 o hop
  · obtain ⟨p, hp, hop⟩ := executes_mem ht o ho
    exact prog_uses (gpu_complete.prog p hp) h1 h2 o hop

private theorem readState_congr {q q' : Nat → ℝ} {l s : Nat} (hl : l < s) (h : ∀ o < 4 * s, q o = q' o) : readState q l s = readState q' l s := by
  unfold readState
  rw [h l (by omega), h (s + l) (by omega), h (2 * s + l) (by omega), h (3 * s + l) (by omega)]

/-- **C79.**  Every read from the constant arrays is inside them: what is stored after their last entry does not matter. -/
theorem C79_interface_reads {q1 q2 q1' q2' : Nat → ℝ} {nx1 nx2 n : Nat} (h1 : 0 < nx1) (h2 : 0 < nx2)
    (e1 : ∀ o < 4 * (nx1 * nx2 * (2 * n)), q1 o = q1' o) (e2 : ∀ o < 4 * (nx1 * nx2 * (2 * n)), q2 o = q2' o) :
    riemannCpu q1 q2 nx1 nx2 n = riemannCpu q1' q2' nx1 nx2 n ∧ riemannGpu q1 q2 nx1 nx2 n = riemannGpu q1' q2' nx1 nx2 n := by
  have e : ∀ i j k, cIndex 0 i j k nx2 nx1 (2 * n) = pos nx1 n i j k := fun i j k => cIndex_eq ..
  have es : nx1 * nx2 * (2 * n) = str nx1 nx2 n := rfl
  have f1 : ∀ dir l r, l < str nx1 nx2 n → r < str nx1 nx2 n → faceOps q1 dir l r (str nx1 nx2 n) = faceOps q1' dir l r (str nx1 nx2 n) :=
    fun dir l r hl hr => by unfold faceOps; rw [readState_congr hl e1, readState_congr hr e1]
  have f2 : ∀ dir l r, l < str nx1 nx2 n → r < str nx1 nx2 n → faceOps q2 dir l r (str nx1 nx2 n) = faceOps q2' dir l r (str nx1 nx2 n) :=
    fun dir l r hl hr => by unfold faceOps; rw [readState_congr hl e2, readState_congr hr e2]
  have w1 : ∀ dir l, l < str nx1 nx2 n → wallOps q1 dir l (str nx1 nx2 n) = wallOps q1' dir l (str nx1 nx2 n) :=
    fun dir l hl => by unfold wallOps; rw [readState_congr hl e1]
  have w2 : ∀ dir l, l < str nx1 nx2 n → wallOps q2 dir l (str nx1 nx2 n) = wallOps q2' dir l (str nx1 nx2 n) :=
    fun dir l hl => by unfold wallOps; rw [readState_congr hl e2]
  constructor
  · unfold riemannCpu
    simp only [e, es]
    congr 1
    · congr 1
      · refine List.flatMap_congr fun i hi => List.flatMap_congr fun j hj => ?_
        rw [List.mem_range] at hi hj
        congr 1
        · split_ifs with hc
          · refine List.map_congr_left fun k hk => ?_
            rw [List.mem_range] at hk
            exact f1 _ _ _ (pos_lt (by omega) (by omega) (by omega)) (pos_lt (by omega) (by omega) (by omega))
          · rfl
        · split_ifs with hc
          · refine List.map_congr_left fun k hk => ?_
            rw [List.mem_range] at hk
            exact f2 _ _ _ (pos_lt (by omega) (by omega) (by omega)) (pos_lt (by omega) (by omega) (by omega))
          · rfl
      · refine List.flatMap_congr fun i hi => List.flatMap_congr fun j hj => ?_
        rw [List.mem_range] at hi hj
        rw [w1 _ _ (pos_lt (by omega) (by omega) (by omega)), w1 _ _ (pos_lt (by omega) (by omega) (by omega))]
    · refine List.flatMap_congr fun i hi => List.flatMap_congr fun j hj => ?_
      rw [List.mem_range] at hi hj
      rw [w2 _ _ (pos_lt (by omega) (by omega) (by omega)), w2 _ _ (pos_lt (by omega) (by omega) (by omega))]
  · unfold riemannGpu
    simp only [e, es]
    have l3 : ∀ {ex ey ez : Nat} {b b' : Nat → Nat → Nat → List Op}, (∀ x y z, x < ex → y < ey → z < ez → b x y z = b' x y z) →
        launch3 ex ey ez 8 8 8 b = launch3 ex ey ez 8 8 8 b' := fun h => by
      unfold launch3
      refine List.map_congr_left fun ⟨x, y, z⟩ _ => ?_
      dsimp only
      split_ifs with hc
      · exact h x y z hc.1 hc.2.1 hc.2.2
      · rfl
    have l2 : ∀ {ex ey : Nat} {b b' : Nat → Nat → List Op}, (∀ x y, x < ex → y < ey → b x y = b' x y) →
        launch2 ex ey 16 16 b = launch2 ex ey 16 16 b' := fun h => by
      unfold launch2
      refine List.map_congr_left fun ⟨x, y⟩ _ => ?_
      dsimp only
      split_ifs with hc
      · exact h x y hc.1 hc.2
      · rfl
    congr 1
    · exact l3 fun x y z hx hy hz => f1 _ _ _ (pos_lt (by omega) (by omega) (by omega)) (pos_lt (by omega) (by omega) (by omega))
    · congr 1
      · exact l3 fun x y z hx hy hz => f2 _ _ _ (pos_lt (by omega) (by omega) (by omega)) (pos_lt (by omega) (by omega) (by omega))
      · congr 1
        · refine l2 fun x y hx hy => ?_
          rw [w1 _ _ (pos_lt (by omega) (by omega) (by omega)), w1 _ _ (pos_lt (by omega) (by omega) (by omega))]
        · congr 1
          refine l2 fun x y hx hy => ?_
          rw [w2 _ _ (pos_lt (by omega) (by omega) (by omega)), w2 _ _ (pos_lt (by omega) (by omega) (by omega))]

/-! ## Fluxes at the points -/

private theorem pointOps_uses {q : Nat → ℝ} {l s : Nat} {o : Op} (ho : o ∈ pointOps q l s) {a : Addr} (ha : a ∈ o.uses) :
    ∃ d < 2, ∃ v < 4, a = ⟨d, v * s + l⟩ := by
  rcases List.mem_append.1 ho with ho | ho
  · obtain ⟨v, hv, h⟩ := storeState_uses ho ha
    exact ⟨0, by omega, v, hv, h⟩
  · obtain ⟨v, hv, h⟩ := storeState_uses ho ha
    exact ⟨1, by omega, v, hv, h⟩

private theorem pointOps_writes {q : Nat → ℝ} {l s d v : Nat} (hl : l < s) (hd : d < 2) (hv : v < 4) :
    Writes (pointOps q l s) ⟨d, v * s + l⟩ (field v (pointwise2 d (readState q l s))) := by
  intro m
  unfold pointOps
  rw [exec_append]
  have hd' : d = 0 ∨ d = 1 := by omega
  rcases hd' with rfl | rfl
  · have : Leaves (storeState 1 l s (pointwise2 1 (readState q l s))) ⟨0, v * s + l⟩ := leaves_of_uses fun o ho ha => by
      obtain ⟨w, -, h⟩ := storeState_uses ho ha
      rw [Addr.mk.injEq] at h
      omega
    rw [this]
    exact storeState_writes _ hl hv m
  · exact storeState_writes _ hl hv _

/-- programs at the points of an array, every point at least once -/
private theorem points_exec {q : Nat → ℝ} {s : Nat} {ps : List (List Op)} (hp : ∀ p ∈ ps, p = [] ∨ ∃ l < s, p = pointOps q l s)
    (hall : ∀ l < s, pointOps q l s ∈ ps) (m : Memory) :
    (∀ d < 2, ∀ v < 4, ∀ l < s, exec m ps.flatten ⟨d, v * s + l⟩ = field v (pointwise2 d (readState q l s))) ∧
    ∀ a : Addr, ¬ (a.arr < 2 ∧ a.off < 4 * s) → exec m ps.flatten a = m a := by
  constructor
  · intro d hd v hv l hl
    refine exec_flatten_writes (fun p hpm => ?_) m (Or.inr ⟨_, hall l hl, pointOps_writes hl hd hv⟩)
    rcases hp p hpm with rfl | ⟨l', hl', rfl⟩
    · exact Or.inr (leaves_nil _)
    · by_cases e : l = l'
      · subst e
        exact Or.inl (pointOps_writes hl hd hv)
      · refine Or.inr (leaves_of_uses fun o ho ha => ?_)
        obtain ⟨d', -, w, -, h⟩ := pointOps_uses ho ha
        rw [Addr.mk.injEq] at h
        exact e (var_split hl hl' h.2).2
  · intro a ha
    refine exec_flatten_leaves (fun p hpm => ?_) m
    rcases hp p hpm with rfl | ⟨l', hl', rfl⟩
    · exact leaves_nil _
    · refine leaves_of_uses fun o ho hu => ha ?_
      obtain ⟨d', hd', w, hw, rfl⟩ := pointOps_uses ho hu
      refine ⟨hd', ?_⟩
      calc w * s + l' < (w + 1) * s := by rw [Nat.add_mul, Nat.one_mul]; omega
        _ ≤ 4 * s := Nat.mul_le_mul_right _ hw

private theorem points_apart {q : Nat → ℝ} {l l' s : Nat} (hl : l < s) (hl' : l' < s) (h : l ≠ l') : Apart (pointOps q l s) (pointOps q l' s) := by
  intro a ha b hb x hx hx'
  obtain ⟨d, -, v, -, rfl⟩ := pointOps_uses ha hx
  obtain ⟨d', -, v', -, e⟩ := pointOps_uses hb hx'
  rw [Addr.mk.injEq] at e
  exact h (var_split hl hl' e.2).2

/-- a place in an array of elements and points -/
private theorem index_surj {s1 s2 s3 o : Nat} (h : o < s2 * s1 * s3) : ∃ i < s1, ∃ j < s2, ∃ k < s3, o = (i * s2 + j) * s3 + k := by
  have h3 : 0 < s3 := Nat.pos_of_mul_pos_left (lt_of_le_of_lt (Nat.zero_le _) h)
  have h2 : 0 < s2 := Nat.pos_of_mul_pos_right (Nat.pos_of_mul_pos_right (lt_of_le_of_lt (Nat.zero_le _) h))
  refine ⟨o / s3 / s2, ?_, o / s3 % s2, Nat.mod_lt _ h2, o % s3, Nat.mod_lt _ h3, ?_⟩
  · rw [Nat.div_div_eq_div_mul]
    apply Nat.div_lt_of_lt_mul
    calc o < s2 * s1 * s3 := h
      _ = s3 * s2 * s1 := by ring
  · rw [Nat.mul_comm (o / s3 / s2), Nat.div_add_mod, Nat.mul_comm (o / s3), Nat.div_add_mod]

private theorem pointwiseCpu_all (q : Nat → ℝ) (nx1 nx2 tot : Nat) :
    (∀ p ∈ pointwiseCpu q nx1 nx2 tot, p = [] ∨ ∃ l < nx1 * nx2 * tot, p = pointOps q l (nx1 * nx2 * tot)) ∧
    ∀ l < nx1 * nx2 * tot, pointOps q l (nx1 * nx2 * tot) ∈ pointwiseCpu q nx1 nx2 tot := by
  unfold pointwiseCpu
  simp only [cIndex_eq]
  constructor
  · intro p hp
    obtain ⟨i, hi, hp⟩ := List.mem_flatMap.1 hp
    obtain ⟨j, hj, hp⟩ := List.mem_flatMap.1 hp
    obtain ⟨k, hk, rfl⟩ := List.mem_map.1 hp
    rw [List.mem_range] at hi hj hk
    exact Or.inr ⟨_, index_lt hi hj hk, rfl⟩
  · intro l hl
    obtain ⟨i, hi, j, hj, k, hk, rfl⟩ := index_surj hl
    exact List.mem_flatMap.2 ⟨i, List.mem_range.2 hi, List.mem_flatMap.2 ⟨j, List.mem_range.2 hj, List.mem_map.2 ⟨k, List.mem_range.2 hk, rfl⟩⟩⟩

private theorem pointwiseGpu_all (q : Nat → ℝ) (nx1 nx2 tot : Nat) :
    ((∀ p ∈ (pointwiseGpu q nx1 nx2 tot).flatten, p = [] ∨ ∃ l < nx1 * nx2 * tot, p = pointOps q l (nx1 * nx2 * tot)) ∧
    ∀ l < nx1 * nx2 * tot, pointOps q l (nx1 * nx2 * tot) ∈ (pointwiseGpu q nx1 nx2 tot).flatten) ∧
    ∀ l ∈ pointwiseGpu q nx1 nx2 tot, l.Pairwise Apart := by
  unfold pointwiseGpu
  simp only [List.flatten_cons, List.flatten_nil, List.append_nil, List.mem_singleton]
  refine ⟨⟨fun p hp => mem_launch1 (by decide) hp, fun l hl =>
    launch1_mem (by decide) (fun ind => pointOps q ind (nx1 * nx2 * tot)) hl⟩, ?_⟩
  rintro l rfl
  exact launch1_pairwise fun i hi i' hi' h => points_apart hi hi' h

/-- **C79.**  The fluxes at the points: on the processor and on the card, in any order of the threads, both arrays contain the fluxes of the model
of the Cartesian equations and nothing else has changed. -/
theorem C79_point_fluxes (q : Nat → ℝ) {nx1 nx2 tot : Nat} {tr : List Op}
    (ht : tr = (pointwiseCpu q nx1 nx2 tot).flatten ∨ Executes (pointwiseGpu q nx1 nx2 tot) tr) (m : Memory) :
    (∀ d < 2, ∀ v < 4, ∀ i < nx2, ∀ j < nx1, ∀ k < tot,
      exec m tr ⟨d, rowMajor nx2 nx1 tot v i j k⟩ = EulerCartesian.pointwise d (view q nx2 nx1 tot) v i j k) ∧
    ∀ a : Addr, ¬ (a.arr < 2 ∧ a.off < 4 * (nx1 * nx2 * tot)) → exec m tr a = m a := by
  obtain ⟨h1, h2⟩ : (∀ d < 2, ∀ v < 4, ∀ l < nx1 * nx2 * tot, exec m tr ⟨d, v * (nx1 * nx2 * tot) + l⟩ =
      field v (pointwise2 d (readState q l (nx1 * nx2 * tot)))) ∧
      ∀ a : Addr, ¬ (a.arr < 2 ∧ a.off < 4 * (nx1 * nx2 * tot)) → exec m tr a = m a := by
    rcases ht with rfl | ht
    · exact points_exec (pointwiseCpu_all q nx1 nx2 tot).1 (pointwiseCpu_all q nx1 nx2 tot).2 m
    · obtain ⟨⟨g1, g2⟩, g3⟩ := pointwiseGpu_all q nx1 nx2 tot
      rw [executes_exec ht g3]
      exact points_exec g1 g2 m
  refine ⟨fun d hd v hv i hi j hj k hk => ?_, h2⟩
  rw [rowMajor_eq, h1 d hd v hv _ (index_lt hi hj hk), readState_eq]
  rfl

/-! ## Forcing -/

private theorem forceOps_uses {q pr h c : Nat → ℝ} {l s : Nat} {o : Op} (ho : o ∈ forceOps q pr h c l s) {a : Addr} (ha : a ∈ o.uses) :
    ∃ v, 1 ≤ v ∧ v ≤ 3 ∧ a = ⟨0, v * s + l⟩ := by
  simp only [forceOps, List.mem_cons, List.not_mem_nil, or_false] at ho
  rcases ho with rfl | rfl | rfl <;> simp only [Op.uses, List.mem_singleton] at ha <;> subst ha
  · exact ⟨1, by omega, by omega, by simp⟩
  · exact ⟨2, by omega, by omega, rfl⟩
  · exact ⟨3, by omega, by omega, rfl⟩

/-- the forcing of momentum `a` at the point stored at `l` in arrays of `s` points -/
private noncomputable def wantForce (q pr h c : Nat → ℝ) (s l : Nat) (a : Fin 3) : ℝ :=
  Christoffel3D.forcing (fun b e => h ((3 * b + e) * s + l)) (fun b e => c ((9 * b + e) * s + l))
    (fun b e f => c ((9 * b + symbolRow e f) * s + l)) (q l) ![q (s + l) / q l, q (2 * s + l) / q l, q (3 * s + l) / q l] (pr l) a

private theorem forceOps_writes {q pr h c : Nat → ℝ} {l s : Nat} (hl : l < s) (a : Fin 3) :
    Writes (forceOps q pr h c l s) ⟨0, (a + 1) * s + l⟩ (wantForce q pr h c s l a) := by
  intro m
  simp only [exec, forceOps, List.foldl_cons, List.foldl_nil, Op.run, Addr.mk.injEq, true_and]
  fin_cases a
  · simp only [Nat.zero_add, Nat.one_mul, if_true]
    rw [if_neg (by omega), if_neg (by omega)]
    simp [wantForce, Christoffel3D.forcing, Christoffel3D.forcing1, symbolRow, Nat.add_comm]
  · simp only [Nat.reduceAdd, if_true]
    rw [if_neg (by omega)]
    simp [wantForce, Christoffel3D.forcing, Christoffel3D.forcing1, symbolRow, Nat.add_comm]
  · simp only [Nat.reduceAdd, if_true]
    simp [wantForce, Christoffel3D.forcing, Christoffel3D.forcing1, symbolRow, Nat.add_comm]

private theorem index5_lt {s1 s2 s3 s4 i j k l : Nat} (hi : i < s1) (hj : j < s2) (hk : k < s3) (hl : l < s4) :
    ((i * s2 + j) * s3 + k) * s4 + l < s1 * s2 * s3 * s4 := by
  have := index_lt hi hj hk
  rw [Nat.mul_comm s2 s1] at this
  calc ((i * s2 + j) * s3 + k) * s4 + l < ((i * s2 + j) * s3 + k + 1) * s4 := by rw [Nat.add_mul _ 1, Nat.one_mul]; omega
    _ ≤ _ := Nat.mul_le_mul_right _ this

private theorem forces_exec {q pr h c : Nat → ℝ} {s : Nat} {ps : List (List Op)} (hp : ∀ p ∈ ps, p = [] ∨ ∃ l < s, p = forceOps q pr h c l s)
    (hall : ∀ l < s, forceOps q pr h c l s ∈ ps) (m : Memory) :
    (∀ a : Fin 3, ∀ l < s, exec m ps.flatten ⟨0, (a + 1) * s + l⟩ = wantForce q pr h c s l a) ∧
    ∀ a : Addr, ¬ (a.arr = 0 ∧ s ≤ a.off ∧ a.off < 4 * s) → exec m ps.flatten a = m a := by
  constructor
  · intro a l hl
    refine exec_flatten_writes (fun p hpm => ?_) m (Or.inr ⟨_, hall l hl, forceOps_writes hl a⟩)
    rcases hp p hpm with rfl | ⟨l', hl', rfl⟩
    · exact Or.inr (leaves_nil _)
    · by_cases e : l = l'
      · subst e
        exact Or.inl (forceOps_writes hl a)
      · refine Or.inr (leaves_of_uses fun o ho ha => ?_)
        obtain ⟨w, -, -, h⟩ := forceOps_uses ho ha
        rw [Addr.mk.injEq] at h
        exact e (var_split hl hl' h.2).2
  · intro a ha
    refine exec_flatten_leaves (fun p hpm => ?_) m
    rcases hp p hpm with rfl | ⟨l', hl', rfl⟩
    · exact leaves_nil _
    · refine leaves_of_uses fun o ho hu => ha ?_
      obtain ⟨w, hw, hw', rfl⟩ := forceOps_uses ho hu
      refine ⟨rfl, ?_, ?_⟩
      · calc s = 1 * s := (Nat.one_mul s).symm
          _ ≤ w * s := Nat.mul_le_mul_right _ hw
          _ ≤ _ := Nat.le_add_right _ _
      · calc w * s + l' < (w + 1) * s := by rw [Nat.add_mul, Nat.one_mul]; omega
          _ ≤ 4 * s := Nat.mul_le_mul_right _ (by omega)

private theorem forces_apart {q pr h c : Nat → ℝ} {l l' s : Nat} (hl : l < s) (hl' : l' < s) (hne : l ≠ l') :
    Apart (forceOps q pr h c l s) (forceOps q pr h c l' s) := by
  intro a ha b hb x hx hx'
  obtain ⟨v, -, -, rfl⟩ := forceOps_uses ha hx
  obtain ⟨v', -, -, e⟩ := forceOps_uses hb hx'
  rw [Addr.mk.injEq] at e
  exact hne (var_split hl hl' e.2).2

private theorem forcingCpu_all (q pr h c : Nat → ℝ) (nx1 nx2 nx3 tot : Nat) :
    (∀ p ∈ forcingCpu q pr h c nx1 nx2 nx3 tot, p = [] ∨ ∃ l < nx3 * nx2 * nx1 * tot, p = forceOps q pr h c l (nx3 * nx2 * nx1 * tot)) ∧
    ∀ l < nx3 * nx2 * nx1 * tot, forceOps q pr h c l (nx3 * nx2 * nx1 * tot) ∈ forcingCpu q pr h c nx1 nx2 nx3 tot := by
  unfold forcingCpu
  constructor
  · intro p hp
    obtain ⟨i, hi, hp⟩ := List.mem_flatMap.1 hp
    obtain ⟨j, hj, hp⟩ := List.mem_flatMap.1 hp
    obtain ⟨k, hk, hp⟩ := List.mem_flatMap.1 hp
    obtain ⟨s, hs, rfl⟩ := List.mem_map.1 hp
    rw [List.mem_range] at hi hj hk hs
    exact Or.inr ⟨_, index5_lt hi hj hk hs, rfl⟩
  · intro l hl
    obtain ⟨e, he, k, hk, s, hs, rfl⟩ := index_surj (s1 := nx3 * nx2) (s2 := nx1) (s3 := tot) (by rw [Nat.mul_comm nx1]; exact hl)
    have h2 : 0 < nx2 := Nat.pos_of_mul_pos_left (lt_of_le_of_lt (Nat.zero_le _) he)
    have hee : e = e / nx2 * nx2 + e % nx2 := by rw [Nat.mul_comm (e / nx2)]; exact (Nat.div_add_mod e nx2).symm
    refine List.mem_flatMap.2 ⟨e / nx2, List.mem_range.2 (Nat.div_lt_of_lt_mul (by rw [Nat.mul_comm]; exact he)), List.mem_flatMap.2 ⟨e % nx2,
      List.mem_range.2 (Nat.mod_lt _ h2), List.mem_flatMap.2 ⟨k, List.mem_range.2 hk, List.mem_map.2 ⟨s, List.mem_range.2 hs, ?_⟩⟩⟩⟩
    rw [← hee]

private theorem forcingGpu_all (q pr h c : Nat → ℝ) (nx1 nx2 nx3 tot : Nat) :
    ((∀ p ∈ (forcingGpu q pr h c nx1 nx2 nx3 tot).flatten, p = [] ∨ ∃ l < nx3 * nx2 * nx1 * tot, p = forceOps q pr h c l (nx3 * nx2 * nx1 * tot)) ∧
    ∀ l < nx3 * nx2 * nx1 * tot, forceOps q pr h c l (nx3 * nx2 * nx1 * tot) ∈ (forcingGpu q pr h c nx1 nx2 nx3 tot).flatten) ∧
    ∀ l ∈ forcingGpu q pr h c nx1 nx2 nx3 tot, l.Pairwise Apart := by
  unfold forcingGpu
  rw [show nx1 * nx2 * nx3 * tot = nx3 * nx2 * nx1 * tot by ring]
  simp only [List.flatten_cons, List.flatten_nil, List.append_nil, List.mem_singleton, Nat.zero_add]
  refine ⟨⟨fun p hp => mem_launch1 (by decide) hp, fun l hl =>
    launch1_mem (by decide) (fun id => forceOps q pr h c id (nx3 * nx2 * nx1 * tot)) hl⟩, ?_⟩
  rintro l rfl
  exact launch1_pairwise fun i hi i' hi' h => forces_apart hi hi' h

/-- **C79.**  The forcing of the three momenta: on the processor and on the card, in any order of the threads, the entries of the three momenta
contain the forcing of the model of the equations on the sphere, computed from the metric terms and symbols of the point, and nothing else, in
particular not the forcing of the density and of the potential temperature, has changed. -/
theorem C79_forcing (q pressure h christoffel : Nat → ℝ) {nx1 nx2 nx3 tot : Nat} {tr : List Op}
    (ht : tr = (forcingCpu q pressure h christoffel nx1 nx2 nx3 tot).flatten ∨ Executes (forcingGpu q pressure h christoffel nx1 nx2 nx3 tot) tr)
    (m : Memory) :
    (∀ a : Fin 3, ∀ i < nx3, ∀ j < nx2, ∀ k < nx1, ∀ l < tot,
      let entry (f : Nat → ℝ) (v : Nat) : ℝ := f (rowMajor5 nx3 nx2 nx1 tot v i j k l)
      exec m tr ⟨0, rowMajor5 nx3 nx2 nx1 tot (a + 1) i j k l⟩ =
        Christoffel3D.forcing (fun b c => entry h (3 * b + c)) (fun b c => entry christoffel (9 * b + c))
          (fun b c d => entry christoffel (9 * b + symbolRow c d)) (entry q 0) ![entry q 1 / entry q 0, entry q 2 / entry q 0, entry q 3 / entry q 0]
          (entry pressure 0) a) ∧
    ∀ a : Addr, ¬ (a.arr = 0 ∧ nx3 * nx2 * nx1 * tot ≤ a.off ∧ a.off < 4 * (nx3 * nx2 * nx1 * tot)) → exec m tr a = m a := by
  obtain ⟨h1, h2⟩ : (∀ a : Fin 3, ∀ l < nx3 * nx2 * nx1 * tot, exec m tr ⟨0, (a + 1) * (nx3 * nx2 * nx1 * tot) + l⟩ =
      wantForce q pressure h christoffel (nx3 * nx2 * nx1 * tot) l a) ∧
      ∀ a : Addr, ¬ (a.arr = 0 ∧ nx3 * nx2 * nx1 * tot ≤ a.off ∧ a.off < 4 * (nx3 * nx2 * nx1 * tot)) → exec m tr a = m a := by
    rcases ht with rfl | ht
    · have g := forcingCpu_all q pressure h christoffel nx1 nx2 nx3 tot
      exact forces_exec g.1 g.2 m
    · obtain ⟨⟨g1, g2⟩, g3⟩ := forcingGpu_all q pressure h christoffel nx1 nx2 nx3 tot
      rw [executes_exec ht g3]
      exact forces_exec g1 g2 m
  refine ⟨fun a i hi j hj k hk l hl => ?_, h2⟩
  have e : ∀ v, rowMajor5 nx3 nx2 nx1 tot v i j k l = v * (nx3 * nx2 * nx1 * tot) + (((i * nx2 + j) * nx1 + k) * tot + l) := fun v => by
    unfold rowMajor5; ring
  simp only [e, Nat.zero_mul, Nat.zero_add, Nat.one_mul]
  exact h1 a _ (index5_lt hi hj hk hl)

/-- **C79, where it fails.**  Arrays of another type (for instance of single precision) are left unchanged on the card, without an error. -/
theorem C79_other_type_fails (q1 q2 : Nat → ℝ) (nx1 nx2 n : Nat) {tr : List Op} (ht : Executes (selectRiemannGpu "float32" q1 q2 nx1 nx2 n) tr)
    (m : Memory) : exec m tr = m := by
  have e : selectRiemannGpu "float32" q1 q2 nx1 nx2 n = [] := by
    unfold selectRiemannGpu
    rw [if_neg (by decide), if_neg (by decide)]
  rw [e] at ht
  cases ht
  rfl

/-- the supported types do run the launches -/
theorem C79_supported_types (q1 q2 : Nat → ℝ) (nx1 nx2 n : Nat) : ∀ t ∈ ["float64", "complex128"],
    selectRiemannGpu t q1 q2 nx1 nx2 n = riemannGpu q1 q2 nx1 nx2 n := by
  intro t ht
  simp only [List.mem_cons, List.not_mem_nil, or_false] at ht
  rcases ht with rfl | rfl
  · unfold selectRiemannGpu; rw [if_pos rfl]
  · unfold selectRiemannGpu; rw [if_neg (by decide), if_pos rfl]

/-- every launch has an execution (its threads one after the other, for instance), so the theorems above speak of something -/
theorem executes_exists (ls : List (List (List Op))) : ∃ tr, Executes ls tr := by
  have one : ∀ ps : List (List Op), Interleaves ps ps.flatten := by
    intro ps
    suffices h : ∀ (done rest : List (List Op)), (∀ p ∈ done, p = []) → Interleaves (done ++ rest) rest.flatten by
      simpa using h [] ps (by simp)
    intro done rest
    induction rest generalizing done with
    | nil => intro h; rw [List.append_nil]; exact .done _ h
    | cons p rest ih =>
      intro h
      induction p with
      | nil =>
        have := ih (done ++ [[]]) (by intro p hp; rcases List.mem_append.1 hp with hp | hp; exacts [h p hp, by simpa using hp])
        simpa using this
      | cons o p ih2 =>
        exact .step done o p rest _ ih2
  induction ls with
  | nil => exact ⟨[], .nil⟩
  | cons l ls ih =>
    obtain ⟨tr, h⟩ := ih
    exact ⟨l.flatten ++ tr, .cons _ _ _ _ (one l) h⟩

/-- three elements by two with two points each side: an order of the threads exists and the memory is that of the processor -/
example (q1 q2 : Nat → ℝ) (m : Memory) : ∃ tr, Executes (riemannGpu q1 q2 3 2 2) tr ∧ exec m tr = exec m (riemannCpu q1 q2 3 2 2).flatten := by
  obtain ⟨tr, h⟩ := executes_exists (riemannGpu q1 q2 3 2 2)
  exact ⟨tr, h, C79_interface_same q1 q2 (by decide) (by decide) h m⟩

/-- the order of the threads does matter in general: two threads that share an address -/
example : ∃ (ps : List (List Op)) (t t' : List Op), Interleaves ps t ∧ Interleaves ps t' ∧ exec (fun _ => 0) t ≠ exec (fun _ => 0) t' := by
  refine ⟨[[Op.set ⟨0, 0⟩ 1], [Op.set ⟨0, 0⟩ 2]], [Op.set ⟨0, 0⟩ 1, Op.set ⟨0, 0⟩ 2], [Op.set ⟨0, 0⟩ 2, Op.set ⟨0, 0⟩ 1], ?_, ?_, ?_⟩
  · exact .step [] _ [] [[Op.set ⟨0, 0⟩ 2]] _ (.step [[]] _ [] [] _ (.done _ (by simp)))
  · exact .step [[Op.set ⟨0, 0⟩ 1]] _ [] [] _ (.step [] _ [] [[]] _ (.done _ (by simp)))
  · intro h
    have := congrFun h ⟨0, 0⟩
    norm_num [exec, Op.run] at this

end WxVerif.Props.Kernels
