import Verif.Model.NdArray
import Mathlib.Algebra.BigOperators.Group.List.Basic
import Mathlib.Tactic.Ring
import Mathlib.Data.List.Sort

/-! # Facts about the array operations -/

namespace WxVerif.Nd

variable {α : Type*}

theorem size_cons (s : Nat) (ss : List Nat) : size (s :: ss) = s * size ss := by simp [size]
theorem size_nil : size [] = 1 := rfl
theorem size_append (s t : List Nat) : size (s ++ t) = size s * size t := by simp [size]

theorem Valid.append {i j s t : List Nat} (h1 : Valid i s) (h2 : Valid j t) : Valid (i ++ j) (s ++ t) :=
  List.rel_append h1 h2

theorem valid_cons {i s : Nat} {is ss : List Nat} : Valid (i :: is) (s :: ss) ↔ i < s ∧ Valid is ss := by
  simp [Valid]
theorem valid_nil : Valid [] [] := List.Forall₂.nil

theorem Valid.length {i s : List Nat} (h : Valid i s) : i.length = s.length := List.Forall₂.length_eq h

theorem ravel_lt {idx shape : List Nat} (h : Valid idx shape) : ravel shape idx < size shape := by
  induction h with
  | nil => simp [ravel, size]
  | @cons i s is ss h1 h2 ih =>
    rw [ravel, size_cons]
    calc i * size ss + ravel ss is < i * size ss + size ss := by omega
      _ = (i + 1) * size ss := by ring
      _ ≤ s * size ss := Nat.mul_le_mul_right _ h1

theorem unravel_ravel {idx shape : List Nat} (h : Valid idx shape) : unravel shape (ravel shape idx) = idx := by
  induction h with
  | nil => rfl
  | @cons i s is ss h1 h2 ih =>
    have hl := ravel_lt h2
    have h0 : 0 < size ss := by omega
    rw [ravel, unravel, Nat.add_comm, Nat.add_mul_div_right _ _ h0, Nat.div_eq_of_lt hl, Nat.zero_add,
      Nat.add_mul_mod_self_right, Nat.mod_eq_of_lt hl, ih]

theorem ravel_append {i s : List Nat} (h : i.length = s.length) (j t : List Nat) :
    ravel (s ++ t) (i ++ j) = ravel s i * size t + ravel t j := by
  induction s generalizing i with
  | nil =>
    have : i = [] := by simpa using h
    subst this
    simp [ravel]
  | cons s ss ih =>
    cases i with
    | nil => simp at h
    | cons a is =>
      simp only [List.cons_append, ravel]
      rw [ih (by simpa using h), size_append]
      ring

/-- An element of a reshaped array is the element of the original array at the same position of the row-major order. -/
theorem reshape_get {s t idx idx' : List Nat} (a : Arr α) (hs : a.shape = s) (hv : Valid idx' s) (h : ravel t idx = ravel s idx') :
    (reshape t a).get idx = a.get idx' := by
  subst hs
  simp only [reshape]
  rw [h, unravel_ravel hv]

theorem idxOf_range {L a : Nat} (h : a < L) (B : List Nat) : (List.range L ++ B).idxOf a = a := by
  rw [List.idxOf_append_of_mem (List.mem_range.mpr h)]
  have := (List.nodup_range (n := L)).idxOf_getElem a (by simpa using h)
  simpa using this

theorem idxOf_map_add (L b : Nat) (loc : List Nat) : (loc.map (L + ·)).idxOf (L + b) = loc.idxOf b := by
  induction loc with
  | nil => rfl
  | cons x xs ih =>
    simp only [List.map_cons, List.idxOf_cons]
    rw [ih]
    by_cases h : x = b
    · simp [h]
    · have : ¬(L + x = L + b) := by omega
      have e1 : (x == b) = false := by simpa using h
      have e2 : (L + x == L + b) = false := by simpa using this
      rw [e1, e2]

/-- A transposition of the last axes acts on the last indices. -/
theorem transpose_get (L m : Nat) (loc : List Nat) {lead s l t : List Nat} (f : List Nat → α) (hl : lead.length = L) (hs : s.length = m)
    (hl' : l.length = L) :
    (transpose (List.range L ++ loc.map (L + ·)) ⟨lead ++ s, f⟩).get (l ++ t) =
      f (l ++ (List.range m).map fun ax => t.getD (loc.idxOf ax) 0) := by
  simp only [transpose]
  congr 1
  rw [List.length_append, hl, hs, List.range_add, List.map_append]
  congr 1
  · apply List.ext_getElem
    · simp [hl']
    · intro k h1 h2
      have hk : k < L := by simpa using h1
      simp only [List.getElem_map, List.getElem_range]
      rw [idxOf_range hk, List.getD_eq_getElem?_getD, List.getElem?_append_left (by omega), List.getElem?_eq_getElem h2]
      rfl
  · rw [List.map_map]
    apply List.map_congr_left
    intro b _
    simp only [Function.comp]
    have : (List.range L ++ loc.map (L + ·)).idxOf (L + b) = L + loc.idxOf b := by
      rw [List.idxOf_append_of_notMem (by simp), idxOf_map_add, List.length_range, Nat.add_comm]
    rw [this, List.getD_eq_getElem?_getD, List.getElem?_append_right (by omega), hl', Nat.add_sub_cancel_left, List.getD_eq_getElem?_getD]

theorem transpose_shape (L : Nat) (loc : List Nat) {lead s : List Nat} (f : List Nat → α) (hl : lead.length = L) :
    (transpose (List.range L ++ loc.map (L + ·)) ⟨lead ++ s, f⟩).shape = lead ++ loc.map fun ax => s.getD ax 0 := by
  simp only [transpose, List.map_append, List.map_map]
  congr 1
  · apply List.ext_getElem
    · simp [hl]
    · intro k h1 h2
      simp only [List.getElem_map, List.getElem_range]
      rw [List.getD_eq_getElem?_getD, List.getElem?_append_left h2, List.getElem?_eq_getElem h2]
      rfl
  · apply List.map_congr_left
    intro b _
    simp only [Function.comp]
    rw [List.getD_eq_getElem?_getD, List.getElem?_append_right (by omega), hl, Nat.add_sub_cancel_left, List.getD_eq_getElem?_getD]

theorem insertAt_tail (L d s : Nat) (B : List Nat) :
    insertAt (List.range L ++ B.map (L + ·)) (L + d) (L + s) = List.range L ++ (insertAt B d s).map (L + ·) := by
  unfold insertAt
  rw [List.take_append, List.drop_append, List.take_of_length_le (by simp), List.drop_of_length_le (by simp)]
  simp [List.map_take, List.map_drop]

theorem moveOrder_tail (L m : Nat) (src dst : List Nat) :
    moveOrder (L + m) (src.map (L + ·)) (dst.map (L + ·)) = List.range L ++ (moveOrder m src dst).map (L + ·) := by
  unfold moveOrder
  have hf : ((List.range (L + m)).filter fun ax => !(src.map (L + ·)).contains ax) =
      List.range L ++ ((List.range m).filter fun ax => !src.contains ax).map (L + ·) := by
    rw [List.range_add, List.filter_append]
    congr 1
    · rw [List.filter_eq_self]
      intro a ha
      have := List.mem_range.mp ha
      simp
      intro x _
      omega
    · rw [List.filter_map]
      congr 1
      apply List.filter_congr
      intro x _
      simp
  rw [hf]
  have hz : ((dst.map (L + ·)).zip (src.map (L + ·))).insertionSort (fun a b => a.1 < b.1 ∨ a.1 = b.1 ∧ a.2 ≤ b.2) =
      ((dst.zip src).insertionSort fun a b => a.1 < b.1 ∨ a.1 = b.1 ∧ a.2 ≤ b.2).map (Prod.map (L + ·) (L + ·)) := by
    rw [List.zip_map]
    refine Eq.symm (List.map_insertionSort _ _ _ _ ?_)
    intro a _ b _
    simp
  rw [hz]
  generalize ((dst.zip src).insertionSort fun a b => a.1 < b.1 ∨ a.1 = b.1 ∧ a.2 ≤ b.2) = l
  generalize ((List.range m).filter fun ax => !src.contains ax) = o
  induction l generalizing o with
  | nil => rfl
  | cons x xs ih =>
    simp only [List.map_cons, List.foldl_cons, Prod.map]
    rw [insertAt_tail, ih]

theorem normAxis_neg (L m k : Nat) (h : k ≤ m) (h0 : 0 < k) : normAxis (L + m) (-(k : Int)) = L + (m - k) := by
  unfold normAxis
  rw [if_pos (by omega)]
  omega

/-- `moveaxis` with negative axes acts on the last indices. -/
theorem moveaxis_eq (m : Nat) (src dst : List Nat) {lead s : List Nat} (f : List Nat → α) (hs : s.length = m)
    (h1 : ∀ k ∈ src, 0 < k ∧ k ≤ m) (h2 : ∀ k ∈ dst, 0 < k ∧ k ≤ m) :
    moveaxis (src.map fun k : Nat => -(k : Int)) (dst.map fun k : Nat => -(k : Int)) (⟨lead ++ s, f⟩ : Arr α) =
      transpose (List.range lead.length ++ (moveOrder m (src.map (m - ·)) (dst.map (m - ·))).map (lead.length + ·)) ⟨lead ++ s, f⟩ := by
  unfold moveaxis
  rw [← moveOrder_tail]
  congr 2
  · simp [hs]
  · rw [List.map_map, List.map_map]
    apply List.map_congr_left
    intro k hk
    simp only [Function.comp, List.length_append, hs]
    exact normAxis_neg _ _ _ (h1 k hk).2 (h1 k hk).1
  · rw [List.map_map, List.map_map]
    apply List.map_congr_left
    intro k hk
    simp only [Function.comp, List.length_append, hs]
    exact normAxis_neg _ _ _ (h2 k hk).2 (h2 k hk).1

theorem swapaxes_eq (m x y : Nat) {lead s : List Nat} (f : List Nat → α) (hs : s.length = m) (hx : 0 < x ∧ x ≤ m) (hy : 0 < y ∧ y ≤ m) :
    swapaxes (-(x : Int)) (-(y : Int)) (⟨lead ++ s, f⟩ : Arr α) =
      transpose (List.range lead.length ++ ((List.range m).map fun ax => if ax = m - x then m - y else if ax = m - y then m - x else ax).map
        (lead.length + ·)) ⟨lead ++ s, f⟩ := by
  unfold swapaxes
  simp only [List.length_append, hs]
  rw [normAxis_neg _ _ _ hx.2 hx.1, normAxis_neg _ _ _ hy.2 hy.1]
  congr 1
  rw [List.range_add, List.map_append]
  congr 1
  · conv_rhs => rw [← List.map_id (List.range lead.length)]
    apply List.map_congr_left
    intro a ha
    have := List.mem_range.mp ha
    rw [if_neg (by omega), if_neg (by omega)]
    rfl
  · rw [List.map_map, List.map_map]
    apply List.map_congr_left
    intro b _
    simp only [Function.comp]
    split_ifs <;> omega

theorem assign_get (s : List Sl) (v a : Arr α) {l t : List Nat} (ht : t.length = s.length) :
    (assign s v a).get (l ++ t) = match inside s t with
      | some u => v.get (l ++ u)
      | none => a.get (l ++ t) := by
  simp only [assign, List.length_append, ht, Nat.add_sub_cancel]
  rw [List.drop_left, List.take_left]
  cases inside s t <;> rfl

theorem assignConst_get (s : List Sl) (c : α) (a : Arr α) {l t : List Nat} (ht : t.length = s.length) :
    (assignConst s c a).get (l ++ t) = if (inside s t).isSome then c else a.get (l ++ t) := by
  simp only [assignConst, List.length_append, ht, Nat.add_sub_cancel]
  rw [List.drop_left]

end WxVerif.Nd

namespace WxVerif.Nd

variable {α : Type*}

/-- Reshape, transpose the last axes, reshape: which element ends where. -/
theorem reshape_transpose_reshape {lead s0 s t : List Nat} (loc : List Nat) (a : Arr α) (ha : a.shape = lead ++ s0) {l idx mid idx0 : List Nat}
    (hl : Valid l lead) (hmid : Valid mid (loc.map fun ax => s.getD ax 0)) (h0 : Valid idx0 s0)
    (ht : size t = size (loc.map fun ax => s.getD ax 0)) (hs : size s = size s0)
    (hr : ravel t idx = ravel (loc.map fun ax => s.getD ax 0) mid)
    (hr0 : ravel s ((List.range s.length).map fun ax => mid.getD (loc.idxOf ax) 0) = ravel s0 idx0) :
    (reshape (lead ++ t) (transpose (List.range lead.length ++ loc.map (lead.length + ·)) (reshape (lead ++ s) a))).get (l ++ idx) =
      a.get (l ++ idx0) := by
  have hll := hl.length
  rw [reshape_get _ (s := lead ++ loc.map fun ax => s.getD ax 0) (idx' := l ++ mid)]
  · rw [show reshape (lead ++ s) a = ⟨lead ++ s, (reshape (lead ++ s) a).get⟩ from rfl,
      transpose_get lead.length s.length loc _ rfl rfl hll]
    rw [reshape_get _ ha (idx' := l ++ idx0) (hl.append h0)]
    rw [ravel_append hll, ravel_append hll, hs, hr0]
  · exact transpose_shape lead.length loc _ rfl
  · exact hl.append hmid
  · rw [ravel_append hll, ravel_append hll, ht, hr]

theorem take_lead (lead t : List Nat) : (lead ++ t).take ((lead ++ t).length - t.length) = lead := by simp
theorem drop_lead (lead t : List Nat) : (lead ++ t).drop ((lead ++ t).length - t.length) = t := by simp

end WxVerif.Nd

namespace WxVerif.Nd

variable {α : Type*}

theorem valid_split {idx lead t : List Nat} (h : Valid idx (lead ++ t)) :
    ∃ l u, idx = l ++ u ∧ Valid l lead ∧ Valid u t := by
  refine ⟨idx.take lead.length, idx.drop lead.length, (List.take_append_drop _ _).symm, ?_, ?_⟩
  · have := List.forall₂_take lead.length h
    rwa [List.take_left] at this
  · have := List.forall₂_drop lead.length h
    rwa [List.drop_left] at this

theorem squeeze_fill {s idx : List Nat} (h : ∀ d ∈ s, d ≠ 1) (hl : idx.length = s.length) : squeeze.fill s idx = idx := by
  induction s generalizing idx with
  | nil => simp at hl; subst hl; rfl
  | cons d ds ih =>
    cases idx with
    | nil => simp at hl
    | cons i is =>
      have hd : d ≠ 1 := h d (by simp)
      rw [squeeze.fill]
      · rw [ih (fun x hx => h x (by simp [hx])) (by simpa using hl)]
      · exact fun h => hd h

/-- Squeezing an array without axes of length 1 changes nothing. -/
theorem squeeze_get {a : Arr α} (h : ∀ d ∈ a.shape, d ≠ 1) {idx : List Nat} (hl : idx.length = a.shape.length) :
    (squeeze a).get idx = a.get idx := by
  simp only [squeeze, squeeze_fill h hl]

theorem squeeze_shape {a : Arr α} (h : ∀ d ∈ a.shape, d ≠ 1) : (squeeze a).shape = a.shape := by
  simp only [squeeze]
  rw [List.filter_eq_self]
  intro d hd
  simpa using h d hd

end WxVerif.Nd

namespace WxVerif.Nd

variable {α : Type*}

theorem assign_rr (lo hi c d x  y : Nat) (v a : Arr α) (l : List Nat) :
    (assign [.range lo hi, .range c d] v a).get (l ++ [x, y]) =
      if (lo ≤ x ∧ x < hi) ∧ c ≤ y ∧ y < d then v.get (l ++ [x - lo, y - c]) else a.get (l ++ [x, y]) := by
  rw [assign_get _ _ _ rfl]
  by_cases h : lo ≤ x ∧ x < hi <;> by_cases h' : c ≤ y ∧ y < d <;> simp only [inside, h, h'] <;> simp
theorem assignConst_or (k c d x  y : Nat) (v : α) (a : Arr α) (l : List Nat) :
    (assignConst [.one k, .range c d] v a).get (l ++ [x, y]) =
      if x = k ∧ c ≤ y ∧ y < d then v else a.get (l ++ [x, y]) := by
  rw [assignConst_get _ _ _ rfl]
  by_cases h : x = k <;> by_cases h' : c ≤ y ∧ y < d <;> simp only [inside, h, h'] <;> simp
theorem assign_rar (lo hi c d x u y : Nat) (v a : Arr α) (l : List Nat) :
    (assign [.range lo hi, .all, .range c d] v a).get (l ++ [x, u, y]) =
      if (lo ≤ x ∧ x < hi) ∧ c ≤ y ∧ y < d then v.get (l ++ [x - lo, u, y - c]) else a.get (l ++ [x, u, y]) := by
  rw [assign_get _ _ _ rfl]
  by_cases h : lo ≤ x ∧ x < hi <;> by_cases h' : c ≤ y ∧ y < d <;> simp only [inside, h, h'] <;> simp
theorem assignConst_oar (k c d x u y : Nat) (v : α) (a : Arr α) (l : List Nat) :
    (assignConst [.one k, .all, .range c d] v a).get (l ++ [x, u, y]) =
      if x = k ∧ c ≤ y ∧ y < d then v else a.get (l ++ [x, u, y]) := by
  rw [assignConst_get _ _ _ rfl]
  by_cases h : x = k <;> by_cases h' : c ≤ y ∧ y < d <;> simp only [inside, h, h'] <;> simp
theorem assign_raar (lo hi c d x u w y : Nat) (v a : Arr α) (l : List Nat) :
    (assign [.range lo hi, .all, .all, .range c d] v a).get (l ++ [x, u, w, y]) =
      if (lo ≤ x ∧ x < hi) ∧ c ≤ y ∧ y < d then v.get (l ++ [x - lo, u, w, y - c]) else a.get (l ++ [x, u, w, y]) := by
  rw [assign_get _ _ _ rfl]
  by_cases h : lo ≤ x ∧ x < hi <;> by_cases h' : c ≤ y ∧ y < d <;> simp only [inside, h, h'] <;> simp
theorem assignConst_oaar (k c d x u w y : Nat) (v : α) (a : Arr α) (l : List Nat) :
    (assignConst [.one k, .all, .all, .range c d] v a).get (l ++ [x, u, w, y]) =
      if x = k ∧ c ≤ y ∧ y < d then v else a.get (l ++ [x, u, w, y]) := by
  rw [assignConst_get _ _ _ rfl]
  by_cases h : x = k <;> by_cases h' : c ≤ y ∧ y < d <;> simp only [inside, h, h'] <;> simp

end WxVerif.Nd
