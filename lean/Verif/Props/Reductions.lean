import Verif.Model.Reductions

/-!
# Global reductions (C34)
-/

namespace WxVerif.Props.Reductions

open WxVerif.Reductions

theorem mapM_some {α : Type*} (l : List α) (f : α → ℝ) : (l.map fun a => some (f a)).mapM id = some (l.map f) := by
  induction l with
  | nil => rfl
  | cons a l ih => simp [List.mapM_cons, ih]

/-- the whole vector of a distribution -/
def whole (parts : List (List ℝ)) : List ℝ := parts.flatten

/-- **C34** (inner product): whatever the distribution, the result is the sum of the products over all entries. -/
theorem C34_dot (parts : List (List ℝ × List ℝ)) (h : ∀ p ∈ parts, p.1.length = p.2.length) :
    globalDot parts = some ((parts.flatMap fun p => p.1.zip p.2).map fun q => q.1 * q.2).sum := by
  have e : parts.map (fun p => localDot p.1 p.2) = parts.map fun p => some ((p.1.zip p.2).map fun q => q.1 * q.2).sum := by
    apply List.map_congr_left
    intro p hp
    unfold localDot
    rw [if_pos (h p hp), List.zip_eq_zipWith, List.map_zipWith]
  unfold globalDot allreduceSum
  rw [e, mapM_some]
  simp only [Option.map_some, Option.some.injEq]
  induction parts with
  | nil => rfl
  | cons p ps ih =>
    simp only [List.map_cons, List.sum_cons, List.flatMap_cons, List.map_append, List.sum_append]
    rw [ih (fun q hq => h q (by simp [hq])) (List.map_congr_left fun q hq => by
      unfold localDot
      rw [if_pos (h q (by simp [hq])), List.zip_eq_zipWith, List.map_zipWith])]

/-- **C34**: two distributions of the same pairs of entries, in any order, give the same inner product. -/
theorem C34_dot_independent (parts parts' : List (List ℝ × List ℝ)) (h : ∀ p ∈ parts, p.1.length = p.2.length)
    (h' : ∀ p ∈ parts', p.1.length = p.2.length)
    (hsame : (parts.flatMap fun p => p.1.zip p.2).Perm (parts'.flatMap fun p => p.1.zip p.2)) :
    globalDot parts = globalDot parts' := by
  rw [C34_dot parts h, C34_dot parts' h', (hsame.map _).sum_eq]

/-- **C34** (norm): whatever the distribution, the result is the Euclidean norm of the whole vector. -/
theorem C34_norm (parts : List (List ℝ)) :
    globalNorm parts = some ‖(WithLp.toLp 2 fun i : Fin (whole parts).length => (whole parts)[i])‖ := by
  have h := C34_dot (parts.map fun v => (v, v)) (by simp)
  have e : globalNorm parts = (globalDot (parts.map fun v => (v, v))).map Real.sqrt := by
    unfold globalNorm globalDot
    rw [List.map_map]; rfl
  rw [e, h, Option.map_some, EuclideanSpace.norm_eq]
  congr 2
  have e2 : (List.flatMap (fun p : List ℝ × List ℝ => p.1.zip p.2) (parts.map fun v => (v, v))).map (fun q => q.1 * q.2) =
      (whole parts).map fun x => x * x := by
    unfold whole
    induction parts with
    | nil => rfl
    | cons v vs ih =>
      simp only [List.map_cons, List.flatMap_cons, List.map_append, List.flatten_cons]
      rw [ih (C34_dot (vs.map fun v => (v, v)) (by simp)) (by unfold globalNorm globalDot; rw [List.map_map]; rfl)]
      congr 1
      rw [List.zip_eq_zipWith, List.map_zipWith]
      clear ih h e
      induction v with
      | nil => rfl
      | cons a v ih => simp [ih]
  rw [e2]
  have e3 : ∀ l : List ℝ, (l.map fun x => x * x).sum = ∑ i : Fin l.length, ‖l[i]‖ ^ 2 := by
    intro l
    have e4 : ∑ i : Fin l.length, ‖l[i]‖ ^ 2 = ∑ i : Fin l.length, (fun x : ℝ => x * x) (l[i]) := by
      apply Finset.sum_congr rfl
      intro i _
      rw [Real.norm_eq_abs, sq_abs, sq]
    rw [e4, ← Fin.sum_univ_fun_getElem]
    rfl
  rw [e3]

/-- **C34**: two distributions of the same entries, in any order, give the same norm. -/
theorem C34_norm_independent (parts parts' : List (List ℝ)) (hsame : (whole parts).Perm (whole parts')) :
    globalNorm parts = globalNorm parts' := by
  have key : ∀ parts : List (List ℝ), globalNorm parts = some (Real.sqrt ((whole parts).map fun x => x * x).sum) := by
    intro parts
    rw [C34_norm, EuclideanSpace.norm_eq]
    congr 2
    rw [← Fin.sum_univ_fun_getElem]
    apply Finset.sum_congr rfl
    intro i _
    simp only
    rw [Real.norm_eq_abs, sq_abs, sq]
    rfl
  rw [key, key, (hsame.map _).sum_eq]

theorem max?_spec (l : List ℝ) (h : l ≠ []) : ∃ m, l.max? = some m ∧ m ∈ l ∧ ∀ x ∈ l, x ≤ m := by
  cases hm : l.max? with
  | none => rw [List.max?_eq_none_iff] at hm; exact absurd hm h
  | some m =>
    rw [List.max?_eq_some_iff] at hm
    exact ⟨m, rfl, hm.1, hm.2⟩

/-- **C34** (infinity norm): if every process has at least one entry, the result is the greatest absolute value of the whole
    vector, whatever the distribution. -/
theorem C34_inf_norm (parts : List (List ℝ)) (hp : parts ≠ []) (hne : ∀ v ∈ parts, v ≠ []) :
    ∃ m, globalInfNorm parts = some m ∧ IsGreatest {y | ∃ x ∈ whole parts, y = |x|} m := by
  have h1 : ∀ v : List ℝ, v ≠ [] → ∃ m, localMax v = some m ∧ (∃ x ∈ v, m = |x|) ∧ ∀ x ∈ v, |x| ≤ m := by
    intro v hv
    obtain ⟨m, a, b, c⟩ := max?_spec (v.map fun x => |x|) (by simpa using hv)
    obtain ⟨x, hx, rfl⟩ := List.mem_map.1 b
    exact ⟨|x|, a, ⟨x, hx, rfl⟩, fun y hy => c _ (List.mem_map.2 ⟨y, hy, rfl⟩)⟩
  set f : List ℝ → ℝ := fun v => (localMax v).getD 0 with hf
  have e : parts.map localMax = parts.map fun v => some (f v) := by
    apply List.map_congr_left
    intro v hv
    obtain ⟨m, a, -⟩ := h1 v (hne v hv)
    simp only [hf, a, Option.getD_some]
  unfold globalInfNorm allreduceMax
  rw [e, mapM_some, Option.bind_some]
  obtain ⟨m, a, b, c⟩ := max?_spec (parts.map f) (by simpa using hp)
  refine ⟨m, a, ?_, ?_⟩
  · obtain ⟨v, hv, rfl⟩ := List.mem_map.1 b
    obtain ⟨m', a', ⟨x, hx, hx'⟩, -⟩ := h1 v (hne v hv)
    refine ⟨x, List.mem_flatten.2 ⟨v, hv, hx⟩, ?_⟩
    simp only [hf, a', Option.getD_some]; exact hx'
  · rintro y ⟨x, hx, rfl⟩
    obtain ⟨v, hv, hxv⟩ := List.mem_flatten.1 hx
    obtain ⟨m', a', -, c'⟩ := h1 v (hne v hv)
    have := c (f v) (List.mem_map.2 ⟨v, hv, rfl⟩)
    simp only [hf, a', Option.getD_some] at this
    exact (c' x hxv).trans this

/-- **C34**: two distributions of the same entries without empty parts give the same infinity norm. -/
theorem C34_inf_norm_independent (parts parts' : List (List ℝ)) (hp : parts ≠ []) (hp' : parts' ≠ [])
    (hne : ∀ v ∈ parts, v ≠ []) (hne' : ∀ v ∈ parts', v ≠ []) (hsame : ∀ x, x ∈ whole parts ↔ x ∈ whole parts') :
    globalInfNorm parts = globalInfNorm parts' := by
  obtain ⟨m, a, b⟩ := C34_inf_norm parts hp hne
  obtain ⟨m', a', b'⟩ := C34_inf_norm parts' hp' hne'
  simp only [hsame] at b
  rw [a, a', b.unique b']

/-- **C34**, a limit: a process without entries makes the infinity norm fail. -/
theorem C34_inf_norm_empty_part (parts : List (List ℝ)) (h : [] ∈ parts) : globalInfNorm parts = none := by
  have h1 : (parts.map localMax).mapM id = none := by
    obtain ⟨a, b, rfl⟩ := List.append_of_mem h
    rw [List.map_append, List.mapM_append]
    have : localMax [] = none := rfl
    cases ((a.map localMax).mapM id) <;> simp [this]
  unfold globalInfNorm allreduceMax
  rw [h1]; rfl

example : globalNorm [[3], [4]] = globalNorm [[4, 3], []] :=
  C34_norm_independent _ _ (by simpa [whole] using List.Perm.swap (4 : ℝ) 3 [])

example : ∃ m, globalInfNorm [[3, -7], [4]] = some m ∧ IsGreatest {y | ∃ x ∈ whole [[3, -7], [4]], y = |x|} m :=
  C34_inf_norm _ (by simp) (by simp)

end WxVerif.Props.Reductions
