import Verif.Model.Exchange
import Verif.Spec.Exchange
import Verif.Lemmas.NdArray
import Mathlib.Tactic.Ring
import Mathlib.Tactic.Linarith
import Mathlib.Data.List.GetD
import Mathlib.Algebra.Order.BigOperators.GroupWithZero.List

/-! # Facts about the shapes and the flips of exchanged arrays -/

namespace WxVerif.Exchange

open WxVerif.Nd

/-- What the loop returns: some of the remaining axes were used, the product is that of the axes used, and it reaches the length. -/
theorem fuse_ok {len : Nat} : ∀ {rest : List Nat} {k p k' p' : Nat}, fuse len rest k p = .ok (k', p') →
    ∃ m, m ≤ rest.length ∧ k' = k + m ∧ p' = p * (rest.take m).prod ∧ len ≤ p' := by
  intro rest
  induction rest with
  | nil =>
    intro k p k' p' h
    unfold fuse at h
    split at h
    · cases h
    · cases h
      exact ⟨0, by simp, by simp, by simp, by omega⟩
  | cons d rest ih =>
    intro k p k' p' h
    unfold fuse at h
    split at h
    · obtain ⟨m, h1, h2, h3, h4⟩ := ih h
      refine ⟨m + 1, by simpa using h1, by omega, ?_, h4⟩
      rw [h3, List.take_succ_cons, List.prod_cons]
      ring
    · cases h
      exact ⟨0, by simp, by simp, by simp, by omega⟩

/-- The loop only fails by running out of axes, and then the whole array is too small. -/
theorem fuse_error {len : Nat} {e : String} : ∀ {rest : List Nat} {k p : Nat}, fuse len rest k p = .error e →
    e = "IndexError" ∧ p * rest.prod < len := by
  intro rest
  induction rest with
  | nil =>
    intro k p h
    unfold fuse at h
    split at h
    · cases h
      refine ⟨rfl, ?_⟩
      simpa using (by assumption : p < len)
    · cases h
  | cons d rest ih =>
    intro k p h
    unfold fuse at h
    split at h
    · obtain ⟨h1, h2⟩ := ih h
      refine ⟨h1, ?_⟩
      rw [List.prod_cons, ← Nat.mul_assoc]
      exact h2
    · cases h

/-- With positive axes, if the first `m` remaining axes complete the length, the loop stops at the length. -/
theorem fuse_complete {len : Nat} : ∀ {tail rest : List Nat} {k p : Nat}, (∀ d ∈ tail, 0 < d) → 0 < p → p * tail.prod = len →
    ∃ m, m ≤ tail.length ∧ fuse len (tail ++ rest) k p = .ok (k + m, len) ∧ (tail.drop m).prod = 1 := by
  intro tail
  induction tail with
  | nil =>
    intro rest k p _ _ hp
    refine ⟨0, by simp, ?_, by simp⟩
    have hp' : p = len := by simpa using hp
    subst hp'
    cases rest <;> simp [fuse]
  | cons d tail ih =>
    intro rest k p hd h0 hp
    by_cases hlt : p < len
    · obtain ⟨m, h1, h2, h3⟩ := ih (rest := rest) (k := k + 1) (p := p * d) (fun x hx => hd x (List.mem_cons_of_mem _ hx))
        (Nat.mul_pos h0 (hd d (by simp))) (by rw [List.prod_cons, ← Nat.mul_assoc] at hp; exact hp)
      refine ⟨m + 1, by simpa using h1, ?_, by simpa using h3⟩
      rw [List.cons_append, fuse, if_pos hlt, h2]
      congr 2
      omega
    · have hpos : 0 < (d :: tail).prod := List.prod_pos (fun a ha => hd a ha)
      have hge : len ≤ p := by omega
      have hpe : p = len := by
        have : p * 1 ≤ p * (d :: tail).prod := Nat.mul_le_mul_left _ hpos
        omega
      refine ⟨0, by simp, ?_, ?_⟩
      · rw [List.cons_append, fuse, if_neg hlt, hpe, Nat.add_zero]
      · subst hpe
        rw [List.drop_zero]
        exact Nat.eq_of_mul_eq_mul_left h0 (by omega)

/-- An accepted shape: the last axes span the boundary and are replaced by the shape of the boundary. -/
theorem base_sound {s len b : List Nat} (h : baseShape s len = .ok b) :
    ∃ pre post, s = pre ++ post ∧ post ≠ [] ∧ post.prod = len.prod ∧ b = pre ++ len := by
  unfold baseShape at h
  split at h
  · cases h
  · rename_i last rest hr
    have hs : s = rest.reverse ++ [last] := by
      have := congrArg List.reverse hr
      simpa using this
    split at h
    · cases h
    · rename_i k p hf
      split at h
      · cases h
      · rename_i hp
        cases h
        obtain ⟨m, h1, h2, h3, -⟩ := fuse_ok hf
        have hp' : p = len.prod := not_not.mp hp
        refine ⟨s.take (s.length - k), s.drop (s.length - k), (List.take_append_drop _ _).symm, ?_, ?_, rfl⟩
        · intro he
          have := congrArg List.length he
          rw [hs] at this
          simp at this
          omega
        · have e1 : s.length - k = rest.length - m := by
            rw [hs]
            simp
            omega
          rw [← hp', h3, e1, hs, List.drop_append_of_le_length (by simp), List.prod_append]
          have e2 : rest.reverse.drop (rest.length - m) = (rest.take m).reverse := by
            rw [List.reverse_take]
          rw [e2, List.prod_reverse]
          simp
          ring

/-- A shape whose last axes span the boundary is accepted; axes of one entry may stay among the leading ones. -/
theorem base_complete {lead tail len : List Nat} (ht : tail ≠ []) (hpos : ∀ d ∈ tail, 0 < d) (h : tail.prod = len.prod) :
    ∃ ones, ones.prod = 1 ∧ baseShape (lead ++ tail) len = .ok (lead ++ ones ++ len) := by
  obtain ⟨last, rest, hr⟩ : ∃ last rest, tail.reverse = last :: rest := by
    cases hh : tail.reverse with
    | nil => exact absurd (by simpa using hh) ht
    | cons a l => exact ⟨a, l, rfl⟩
  have htl : tail = rest.reverse ++ [last] := by
    have := congrArg List.reverse hr
    simpa using this
  have hm : ∀ d ∈ rest, 0 < d := fun d hd => hpos d (by rw [htl]; simp [hd])
  have hl : 0 < last := hpos last (by rw [htl]; simp)
  have hprod : last * rest.prod = len.prod := by
    rw [← h, htl, List.prod_append, List.prod_reverse]
    simp
    ring
  obtain ⟨m, h1, h2, h3⟩ := fuse_complete (rest := lead.reverse) (k := 1) hm hl hprod
  refine ⟨tail.take (tail.length - (1 + m)), ?_, ?_⟩
  · have e1 : tail.length - (1 + m) = rest.length - m := by
      rw [htl]
      simp
      omega
    rw [e1, htl, List.take_append_of_le_length (by simp)]
    have e2 : rest.reverse.take (rest.length - m) = (rest.drop m).reverse := by
      rw [List.reverse_drop]
    rw [e2, List.prod_reverse, h3]
  · have hrev : (lead ++ tail).reverse = last :: (rest ++ lead.reverse) := by
      rw [List.reverse_append, hr]
      rfl
    unfold baseShape
    rw [hrev]
    dsimp only
    rw [h2]
    dsimp only
    rw [if_neg (by simp)]
    congr 2
    have e3 : (lead ++ tail).length - (1 + m) = lead.length + (tail.length - (1 + m)) := by
      have : 1 + m ≤ tail.length := by
        rw [htl]
        simp
        omega
      rw [List.length_append]
      omega
    rw [e3, List.take_length_add_append]

theorem valid_unravel {shape : List Nat} : ∀ {k : Nat}, k < size shape → Valid (unravel shape k) shape := by
  induction shape with
  | nil => intro k _; exact valid_nil
  | cons s ss ih =>
    intro k hk
    rw [unravel, valid_cons]
    rw [size_cons] at hk
    have h0 : 0 < size ss := by
      rcases Nat.eq_zero_or_pos (size ss) with h | h
      · rw [h] at hk; omega
      · exact h
    exact ⟨Nat.div_lt_of_lt_mul (by rw [Nat.mul_comm]; exact hk), ih (Nat.mod_lt _ h0)⟩

theorem ravel_unravel {shape : List Nat} : ∀ {k : Nat}, k < size shape → ravel shape (unravel shape k) = k := by
  induction shape with
  | nil => intro k hk; rw [size_nil] at hk; simp [ravel]; omega
  | cons s ss ih =>
    intro k hk
    rw [size_cons] at hk
    have h0 : 0 < size ss := by
      rcases Nat.eq_zero_or_pos (size ss) with h | h
      · rw [h] at hk; omega
      · exact h
    rw [unravel, ravel, ih (Nat.mod_lt _ h0), Nat.mul_comm]
    exact Nat.div_add_mod k (size ss)

/-- indices of the view the buffer is filled from: leading indices (in the shape `pre`), then the boundary -/
theorem unravel_append {pre len : List Nat} {a b : Nat} (ha : a < size pre) (hb : b < size len) :
    unravel (pre ++ len) (a * size len + b) = unravel pre a ++ unravel len b := by
  have hv : Valid (unravel pre a ++ unravel len b) (pre ++ len) := (valid_unravel ha).append (valid_unravel hb)
  have := unravel_ravel hv
  rwa [ravel_append (valid_unravel ha).length, ravel_unravel ha, ravel_unravel hb] at this

/-- leading indices, seen in the view -/
def preOf (lead ones l : List Nat) : List Nat := unravel (lead ++ ones) (ravel lead l)

theorem preOf_valid {lead ones l : List Nat} (hones : ones.prod = 1) (hl : Valid l lead) : Valid (preOf lead ones l) (lead ++ ones) := by
  refine valid_unravel ?_
  rw [size_append, show size ones = 1 from hones, Nat.mul_one]
  exact ravel_lt hl

/-- An entry of what is handed back is the entry of the view at the same place. -/
theorem view_out {α : Type} {lead ones tail len l t : List Nat} (hones : ones.prod = 1) (hlen : tail.prod = len.prod) (v : Arr α)
    (hv : v.shape = lead ++ ones ++ len) (hl : Valid l lead) (ht : Valid t tail) :
    (reshape (lead ++ tail) v).get (l ++ t) = v.get (preOf lead ones l ++ unravel len (ravel tail t)) := by
  have hl1 : ravel lead l < size (lead ++ ones) := by
    rw [size_append, show size ones = 1 from hones, Nat.mul_one]
    exact ravel_lt hl
  have hs2 : size tail = size len := hlen
  have ht1 : ravel tail t < size len := by rw [← hs2]; exact ravel_lt ht
  show v.get (unravel v.shape (ravel (lead ++ tail) (l ++ t))) = _
  rw [hv, ravel_append hl.length, hs2, unravel_append hl1 ht1]
  rfl

/-- An entry of the view is the entry of the array given, at the same place. -/
theorem view_in {α : Type} {lead ones tail len l u : List Nat} (hones : ones.prod = 1) (hlen : tail.prod = len.prod) (a : Arr α)
    (ha : a.shape = lead ++ tail) (hl : Valid l lead) (hu : Valid u len) :
    (reshape (lead ++ ones ++ len) a).get (preOf lead ones l ++ u) = a.get (l ++ unravel tail (ravel len u)) := by
  have hl1 : ravel lead l < size (lead ++ ones) := by
    rw [size_append, show size ones = 1 from hones, Nat.mul_one]
    exact ravel_lt hl
  have hs2 : size tail = size len := hlen
  have hu1 : ravel len u < size tail := by rw [hs2]; exact ravel_lt hu
  refine reshape_get a ha (hl.append (valid_unravel hu1)) ?_
  rw [ravel_append (preOf_valid hones hl).length, ravel_append hl.length, ravel_unravel hu1, hs2]
  unfold preOf
  rw [ravel_unravel hl1]

/-- Flipping axes of the boundary only touches the boundary indices. -/
theorem flipAxes_get {α : Type} (axes : List Int) (a : Arr α) {pre u u' lead len : List Nat} (hs : a.shape = lead ++ len)
    (hp : pre.length = lead.length) (hax : ∀ i < lead.length, i ∉ axes.map (normAxis (lead.length + len.length)))
    (hu : (u.mapIdx fun ax i => if lead.length + ax ∈ axes.map (normAxis (lead.length + len.length)) then len.getD ax 0 - 1 - i else i) = u') :
    (flipAxes axes a).get (pre ++ u) = a.get (pre ++ u') := by
  show a.get _ = _
  congr 1
  rw [hs, List.length_append, List.mapIdx_append]
  congr 1
  · apply List.ext_getElem (by simp)
    intro i h1 h2
    rw [List.getElem_mapIdx, if_neg (hax i (by omega))]
  · rw [← hu]
    congr 1
    funext ax i
    rw [hp, Nat.add_comm ax]
    congr 2
    rw [List.getD_append_right _ _ _ _ (by omega)]
    rw [Nat.add_sub_cancel_left]

theorem axes_last (L : Nat) : ([-1] : List Int).map (normAxis (L + 1)) = [L] := by
  have := normAxis_neg L 1 1 (le_refl _) one_pos
  simpa using this

theorem axes_faces (L : Nat) : ([-3, -1] : List Int).map (normAxis (L + 3)) = [L, L + 2] := by
  have h1 := normAxis_neg L 3 1 (by omega) one_pos
  have h3 := normAxis_neg L 3 3 (by omega) (by omega)
  simp only [List.map_cons, List.map_nil]
  rw [show normAxis (L + 3) (-3) = L by simpa using h3, show normAxis (L + 3) (-1) = L + 2 by simpa using h1]

theorem map_range_reverse {α : Type} (m : Nat) (f : Nat → α) : ((List.range m).map f).reverse = (List.range m).map fun i => f (m - 1 - i) := by
  apply List.ext_getElem (by simp)
  intro i h1 h2
  simp

open WxVerif.Topology (Side neighborAlltoall) in
theorem neighborAlltoall_map {β γ : Type} (size : Nat) (f : Nat → Side → β) (g : β → γ) (r : Nat) (d : Side) :
    (neighborAlltoall size f r d).map g = neighborAlltoall size (fun s d' => g (f s d')) r d := by
  unfold neighborAlltoall
  dsimp only
  split
  · rfl
  · rw [Option.map_map]
    rfl

/-- the places of the points along a side in the two layouts -/
theorem flat_place {tail : List Nat} {m i : Nat} (hm : tail.prod = m) (hi : i < m) :
    Valid (flatPts tail i) tail ∧ unravel [m] (ravel tail (flatPts tail i)) = [i] ∧ Valid [m - 1 - i] [m] ∧
      unravel tail (ravel [m] [m - 1 - i]) = flatPts tail (m - 1 - i) ∧ unravel tail (ravel [m] [i]) = flatPts tail i := by
  have h : i < size tail := by unfold size; omega
  refine ⟨valid_unravel h, ?_, ?_, ?_, ?_⟩
  · unfold flatPts
    rw [ravel_unravel h]
    simp [unravel, size]
  · rw [valid_cons]; exact ⟨by omega, valid_nil⟩
  · simp [ravel, size, flatPts]
  · simp [ravel, size, flatPts]

theorem face_valid {N n a i : Nat} (ha : a < n) (hi : i < N * n) :
    Valid (facePts n a i) [N, n * n] ∧ Valid [i / n, a, i % n] [N, n, n] := by
  have hn : 0 < n := by omega
  have h1 : i / n < N := Nat.div_lt_of_lt_mul (by rw [Nat.mul_comm]; exact hi)
  have h2 : i % n < n := Nat.mod_lt _ hn
  have h3 : a * n + i % n < n * n := by
    calc a * n + i % n < a * n + n := by omega
      _ = (a + 1) * n := by ring
      _ ≤ n * n := Nat.mul_le_mul_right _ ha
  refine ⟨?_, ?_⟩
  · unfold facePts
    rw [valid_cons, valid_cons]; exact ⟨h1, h3, valid_nil⟩
  · rw [valid_cons, valid_cons, valid_cons]; exact ⟨h1, ha, h2, valid_nil⟩

theorem face_ravel (N n a i : Nat) : ravel [N, n, n] [i / n, a, i % n] = ravel [N, n * n] (facePts n a i) := by
  simp [ravel, size, facePts]

theorem face_flip {N n i : Nat} (hn : 0 < n) (hi : i < N * n) : (N * n - 1 - i) / n = N - 1 - i / n ∧ (N * n - 1 - i) % n = n - 1 - i % n := by
  have h1 : i / n < N := Nat.div_lt_of_lt_mul (by rw [Nat.mul_comm]; exact hi)
  have h2 : i % n < n := Nat.mod_lt _ hn
  have h3 : N * n - 1 - i = (n - 1 - i % n) + (N - 1 - i / n) * n := by
    have e1 := Nat.div_add_mod i n
    have e2 : N * n = (N - 1 - i / n) * n + (i / n) * n + n := by
      have : N = (N - 1 - i / n) + i / n + 1 := by omega
      calc N * n = ((N - 1 - i / n) + i / n + 1) * n := by rw [← this]
        _ = _ := by ring
    have e3 : n * (i / n) = (i / n) * n := Nat.mul_comm _ _
    omega
  rw [h3, Nat.add_mul_div_right _ _ hn, Nat.add_mul_mod_self_right]
  have h4 : n - 1 - i % n < n := by omega
  rw [Nat.div_eq_of_lt h4, Nat.mod_eq_of_lt h4]
  omega

end WxVerif.Exchange
