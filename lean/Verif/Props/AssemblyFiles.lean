import Verif.Spec.Assembly

/-!
# C94: what is read from a file of matrices is what was stored
-/

namespace WxVerif.Props.AssemblyFiles

open WxVerif.Assembly SpecAssembly

/-! ## Names with numbers -/

/-- no character is a digit -/
def Plain (s : String) : Prop := ∀ c ∈ s.toList, c.isDigit = false

theorem takeWhile_plain {l d : List Char} (hl : ∀ c ∈ l, c.isDigit = false) (hd : ∀ c ∈ d, c.isDigit = true) :
    (l ++ d).takeWhile (fun c => !c.isDigit) = l ∧ (l ++ d).dropWhile (fun c => !c.isDigit) = d := by
  induction l with
  | nil =>
    cases d with
    | nil => simp
    | cons c d => simp [hd c (by simp)]
  | cons c l ih =>
    have h1 := hl c (by simp)
    have h2 := ih fun x hx => hl x (by simp [hx])
    simp [h1, h2.1, h2.2]

theorem label_split {p : String} (hp : Plain p) (n : Nat) :
    (label p n).toList.takeWhile (fun c => !c.isDigit) = p.toList ∧ (label p n).toList.dropWhile (fun c => !c.isDigit) = Nat.toDigits 10 n := by
  unfold label
  rw [String.toList_append, Nat.toList_repr]
  exact takeWhile_plain hp fun c hc => Nat.isDigit_of_mem_toDigits (by omega) (by omega) hc

theorem label_inj {p q : String} (hp : Plain p) (hq : Plain q) {n m : Nat} (h : label p n = label q m) : p = q ∧ n = m := by
  have h1 := label_split hp n
  have h2 := label_split hq m
  rw [h] at h1
  refine ⟨String.toList_inj.1 (h1.1.symm.trans h2.1), ?_⟩
  have := congrArg (fun l => Nat.ofDigitChars 10 l 0) (h1.2.symm.trans h2.2)
  simpa [Nat.ofDigitChars_ten_toDigits] using this

theorem plain_names : Plain "data" ∧ Plain "shape" ∧ Plain "format" ∧ Plain "indptr" ∧ Plain "indices" ∧ Plain "offsets" ∧ Plain "row" ∧ Plain "col" := by
  refine ⟨?_, ?_, ?_, ?_, ?_, ?_, ?_, ?_⟩ <;> · unfold Plain; decide +kernel

theorem label_ne {p q : String} (hp : Plain p) (hq : Plain q) (h : p ≠ q) (n m : Nat) : (label p n == label q m) = false := by
  rw [beq_eq_false_iff_ne]
  exact fun e => h (label_inj hp hq e).1

theorem label_ne' {p q : String} (hp : Plain p) (hq : Plain q) {n m : Nat} (h : n ≠ m) : (label p n == label q m) = false := by
  rw [beq_eq_false_iff_ne]
  exact fun e => h (label_inj hp hq e).2

/-! ## One matrix -/

variable {A : Type}

/-- the archive has the matrix `m` under the number `num` -/
def Has (d : Archive A) (num : Nat) : Sparse A → Prop
  | .compressed f data indices indptr shape => d.lookup (label "format" num) = some (.bytes f.name) ∧ d.lookup (label "data" num) = some (.array data) ∧
      d.lookup (label "indices" num) = some (.array indices) ∧ d.lookup (label "indptr" num) = some (.array indptr) ∧
      d.lookup (label "shape" num) = some (.shape shape)
  | .dia data offsets shape => d.lookup (label "format" num) = some (.bytes "dia") ∧ d.lookup (label "data" num) = some (.array data) ∧
      d.lookup (label "offsets" num) = some (.array offsets) ∧ d.lookup (label "shape" num) = some (.shape shape)
  | .coo data row col shape => d.lookup (label "format" num) = some (.bytes "coo") ∧ d.lookup (label "data" num) = some (.array data) ∧
      d.lookup (label "row" num) = some (.nested row) ∧ d.lookup (label "col" num) = some (.array col) ∧
      d.lookup (label "shape" num) = some (.shape shape)
  | .other _ => False

/-- a format `save_matrices` knows -/
def Known : Sparse A → Prop
  | .other _ => False
  | _ => True

/-- the names with another number refer to the same as before -/
def SameElsewhere (d d' : Archive A) (num : Nat) : Prop :=
  ∀ p k, Plain p → k ≠ num → d'.lookup (label p k) = d.lookup (label p k)

theorem saveOne_spec (num : Nat) (m : Sparse A) (hm : Known m) (d : Archive A) :
    ∃ d', saveOne num m d = .ok d' ∧ Has d' num m ∧ SameElsewhere d d' num ∧ d.length + 1 ≤ d'.length := by
  obtain ⟨p1, p2, p3, p4, p5, p6, p7, p8⟩ := plain_names
  cases m with
  | compressed f data indices indptr shape =>
    refine ⟨_, rfl, ?_, fun p k hp hk => ?_, by simp⟩
    · simp [Has, List.lookup_cons, label_ne p3 p1 (by decide), label_ne p3 p2 (by decide), label_ne p5 p1 (by decide), label_ne p5 p2 (by decide),
        label_ne p5 p3 (by decide), label_ne p5 p4 (by decide), label_ne p4 p1 (by decide), label_ne p4 p2 (by decide), label_ne p4 p3 (by decide),
        label_ne p2 p1 (by decide)]
    · simp [List.lookup_cons, label_ne' hp p1 hk, label_ne' hp p2 hk, label_ne' hp p3 hk, label_ne' hp p4 hk, label_ne' hp p5 hk]
  | dia data offsets shape =>
    refine ⟨_, rfl, ?_, fun p k hp hk => ?_, by simp⟩
    · simp [Has, List.lookup_cons, label_ne p3 p1 (by decide), label_ne p3 p2 (by decide), label_ne p6 p1 (by decide), label_ne p6 p2 (by decide),
        label_ne p6 p3 (by decide), label_ne p2 p1 (by decide)]
    · simp [List.lookup_cons, label_ne' hp p1 hk, label_ne' hp p2 hk, label_ne' hp p3 hk, label_ne' hp p6 hk]
  | coo data row col shape =>
    refine ⟨_, rfl, ?_, fun p k hp hk => ?_, by simp⟩
    · simp [Has, List.lookup_cons, label_ne p3 p1 (by decide), label_ne p3 p2 (by decide), label_ne p7 p1 (by decide), label_ne p7 p2 (by decide),
        label_ne p7 p3 (by decide), label_ne p7 p8 (by decide), label_ne p8 p1 (by decide), label_ne p8 p2 (by decide), label_ne p8 p3 (by decide),
        label_ne p2 p1 (by decide)]
    · simp [List.lookup_cons, label_ne' hp p1 hk, label_ne' hp p2 hk, label_ne' hp p3 hk, label_ne' hp p7 hk, label_ne' hp p8 hk]
  | other f => exact absurd hm id

theorem has_congr {d d' : Archive A} {num : Nat} (h : ∀ p, Plain p → d'.lookup (label p num) = d.lookup (label p num)) {m : Sparse A} (hm : Has d num m) :
    Has d' num m := by
  obtain ⟨p1, p2, p3, p4, p5, p6, p7, p8⟩ := plain_names
  cases m <;> simp only [Has] at hm ⊢ <;> simp only [h _ p1, h _ p2, h _ p3, h _ p4, h _ p5, h _ p6, h _ p7, h _ p8] <;> exact hm

theorem saveFrom_spec : ∀ (L : List (Sparse A)) (num : Nat) (d : Archive A), (∀ m ∈ L, Known m) →
    ∃ d', saveFrom num L d = .ok d' ∧ (∀ i (hi : i < L.length), Has d' (num + i) L[i]) ∧
      (∀ p k, Plain p → k < num ∨ num + L.length ≤ k → d'.lookup (label p k) = d.lookup (label p k)) ∧ d.length + L.length ≤ d'.length := by
  intro L
  induction L with
  | nil => intro num d _; exact ⟨d, rfl, by simp, fun _ _ _ _ => rfl, by simp⟩
  | cons m L ih =>
    intro num d hL
    obtain ⟨d1, e1, h1, s1, l1⟩ := saveOne_spec num m (hL m (by simp)) d
    obtain ⟨d2, e2, h2, s2, l2⟩ := ih (num + 1) d1 fun x hx => hL x (by simp [hx])
    refine ⟨d2, ?_, fun i hi => ?_, fun p k hp hk => ?_, ?_⟩
    · simp only [saveFrom, e1, e2]
    · cases i with
      | zero => exact has_congr (fun p hp => s2 p num hp (Or.inl (by omega))) h1
      | succ i =>
        have := h2 i (by simpa using hi)
        rwa [show num + 1 + i = num + (i + 1) by omega] at this
    · rw [List.length_cons] at hk
      rw [s2 p k hp (by omega), s1 p k hp (by omega)]
    · rw [List.length_cons]; omega

theorem formatOf_has {d : Archive A} {num : Nat} {m : Sparse A} (h : Has d num m) : ∃ f, formatOf d num = some f := by
  cases m with
  | compressed f _ _ _ _ => exact ⟨f.name, by simp [formatOf, h.1]⟩
  | dia => exact ⟨"dia", by simp [formatOf, h.1]⟩
  | coo => exact ⟨"coo", by simp [formatOf, h.1]⟩
  | other => exact h.elim

theorem load_has {d : Archive A} {num : Nat} {m : Sparse A} (h : Has d num m) (hr : Readable m) {f : String} (hf : formatOf d num = some f) :
    loadOne d num f = .ok m := by
  cases m with
  | compressed g data indices indptr shape =>
    obtain ⟨h1, h2, h3, h4, h5⟩ := h
    have : f = g.name := by simpa [formatOf, h1, eq_comm] using hf
    subst this
    cases g <;> simp [loadOne, CFmt.name, loadCompressed, array, shapeOf, h2, h3, h4, h5] <;> rfl
  | dia data offsets shape =>
    obtain ⟨h1, h2, h3, h4⟩ := h
    have : f = "dia" := by simpa [formatOf, h1, eq_comm] using hf
    subst this
    simp [loadOne, loadDia, array, shapeOf, h2, h3, h4]
    rfl
  | coo => exact hr.elim
  | other => exact hr.elim

theorem load_coo {d : Archive A} {num : Nat} {data row col : A} {shape : Nat × Nat} (h : Has d num (.coo data row col shape)) {f : String}
    (hf : formatOf d num = some f) : loadOne d num f = .error .valueError := by
  obtain ⟨h1, h2, h3, h4, h5⟩ := h
  have : f = "coo" := by simpa [formatOf, h1, eq_comm] using hf
  subst this
  simp [loadOne, loadCoo, array, h2, h3]
  rfl

theorem loadFrom_spec (d : Archive A) : ∀ (L : List (Sparse A)) (num fuel : Nat), L.length < fuel → (∀ m ∈ L, Readable m) →
    (∀ i (hi : i < L.length), Has d (num + i) L[i]) → formatOf d (num + L.length) = none → loadFrom d fuel num = .ok L := by
  intro L
  induction L with
  | nil =>
    intro num fuel hf _ _ hn
    obtain ⟨k, rfl⟩ : ∃ k, fuel = k + 1 := ⟨fuel - 1, by simp at hf; omega⟩
    rw [List.length_nil, Nat.add_zero] at hn
    simp only [loadFrom, hn]
  | cons m L ih =>
    intro num fuel hf hr hh hn
    rw [List.length_cons] at hf
    obtain ⟨k, rfl⟩ : ∃ k, fuel = k + 1 := ⟨fuel - 1, by omega⟩
    have h0 := hh 0 (by simp)
    obtain ⟨f, ef⟩ := formatOf_has h0
    have e := load_has h0 (hr m (by simp)) ef
    have e2 := ih (num + 1) k (by omega) (fun x hx => hr x (by simp [hx])) (fun i hi => by
        have := hh (i + 1) (by simpa using hi)
        rwa [show num + (i + 1) = num + 1 + i by omega] at this) (by rw [List.length_cons] at hn; rwa [show num + 1 + L.length = num + (L.length + 1) by omega])
    rw [Nat.add_zero] at ef e
    simp only [loadFrom, ef, e, e2, List.getElem_cons_zero]

theorem loadFrom_error (d : Archive A) : ∀ (L : List (Sparse A)) (num fuel : Nat), L.length < fuel → (∃ m ∈ L, ¬ Readable m) →
    (∀ i (hi : i < L.length), Has d (num + i) L[i]) → loadFrom d fuel num = .error .valueError := by
  intro L
  induction L with
  | nil => intro num fuel _ h; simp at h
  | cons m L ih =>
    intro num fuel hf hr hh
    rw [List.length_cons] at hf
    obtain ⟨k, rfl⟩ : ∃ k, fuel = k + 1 := ⟨fuel - 1, by omega⟩
    have h0 := hh 0 (by simp)
    obtain ⟨f, ef⟩ := formatOf_has h0
    by_cases hm : Readable m
    · have e := load_has h0 hm ef
      have e2 := ih (num + 1) k (by omega) (by
        obtain ⟨x, hx, hn⟩ := hr
        rcases List.mem_cons.1 hx with rfl | hx
        · exact absurd hm hn
        · exact ⟨x, hx, hn⟩) (fun i hi => by
        have := hh (i + 1) (by simpa using hi)
        rwa [show num + (i + 1) = num + 1 + i by omega] at this)
      rw [Nat.add_zero] at ef e
      simp only [loadFrom, ef, e, e2]
    · rw [List.getElem_cons_zero] at h0
      cases m with
      | compressed => exact absurd trivial hm
      | dia => exact absurd trivial hm
      | other => exact h0.elim
      | coo data row col shape =>
        have e := load_coo h0 ef
        rw [Nat.add_zero] at ef e
        simp only [loadFrom, ef, e]

theorem readable_known {m : Sparse A} (h : Readable m) : Known m := by
  cases m <;> first | trivial | exact h.elim

/-- **C94** Every non-empty list of matrices in a compressed or diagonal format is read from the file as it was
    stored: as many matrices, in the same order, with the same formats, arrays and sizes. -/
theorem C94_matrices (L : List (Sparse A)) (h0 : L ≠ []) (hL : ∀ m ∈ L, Readable m) :
    ∃ d, saveMatrices L = .ok d ∧ loadMatrices d = .ok L := by
  obtain ⟨d, e, h, s, l⟩ := saveFrom_spec L 0 [] fun m hm => readable_known (hL m hm)
  refine ⟨d, e, ?_⟩
  have hpos : 0 < L.length := List.length_pos_of_ne_nil h0
  obtain ⟨f, hf⟩ := formatOf_has (h 0 hpos)
  rw [Nat.add_zero] at hf
  simp only [loadMatrices, hf]
  refine loadFrom_spec d L 0 _ (by simp at l; omega) hL h ?_
  simp only [formatOf, s "format" _ plain_names.2.2.1 (Or.inr le_rfl), List.lookup_nil]

/-- **C94** fails for matrices in coordinate format: every list with such a matrix is stored without complaint, and
    reading the file raises an error. -/
theorem C94_coo_fails (L : List (Sparse A)) (data row col : A) (shape : Nat × Nat) (h : Sparse.coo data row col shape ∈ L) (hL : ∀ f, Sparse.other f ∉ L) :
    ∃ d, saveMatrices L = .ok d ∧ loadMatrices d = .error .valueError := by
  have hk : ∀ m ∈ L, Known m := by
    intro m hm
    cases m with
    | other f => exact absurd hm (hL f)
    | _ => trivial
  obtain ⟨d, e, h', s, l⟩ := saveFrom_spec L 0 [] hk
  refine ⟨d, e, ?_⟩
  have hpos : 0 < L.length := List.length_pos_of_mem h
  obtain ⟨f, hf⟩ := formatOf_has (h' 0 hpos)
  rw [Nat.add_zero] at hf
  simp only [loadMatrices, hf]
  exact loadFrom_error d L 0 _ (by simp at l; omega) ⟨_, h, id⟩ h'

/-! ## Sets of matrices -/

variable {P : Type}

/-- the keys that refer to an entry -/
def isEntry (k : String) : Bool := decide (k ∉ ignoreList)

theorem keys_spec (S : List (String × Item A P)) : ∀ L : List String,
    (∀ k ∈ L, k ∉ ignoreList → ∃ rhs rhsP m mP, S.lookup k = some (.entry rhs rhsP m mP) ∧ Readable m ∧ Readable mP) →
    ∃ R M E D, storeKeys S L = .ok (R, M) ∧ (∀ F, loadKeys L (R ++ F) = .ok (E, F)) ∧ (∀ M', attach E (M ++ M') = .ok (D, M')) ∧
      (∀ m ∈ M, Readable m) ∧ ((∃ k ∈ L, k ∉ ignoreList) → M ≠ []) ∧
      ∀ k, D.lookup k = if k ∈ L ∧ k ∉ ignoreList then S.lookup k else none := by
  intro L
  induction L with
  | nil => intro _; exact ⟨[], [], [], [], rfl, fun _ => rfl, fun _ => rfl, by simp, by simp, by simp⟩
  | cons key L ih =>
    intro h
    obtain ⟨R, M, E, D, h1, h2, h3, h4, h5, h6⟩ := ih fun k hk => h k (by simp [hk])
    by_cases hi : key ∈ ignoreList
    · refine ⟨R, M, E, D, by simp only [storeKeys, hi, if_true, h1], fun F => by simp only [loadKeys, hi, if_true, h2], h3, h4, ?_, fun k => ?_⟩
      · rintro ⟨k, hk, hn⟩
        rcases List.mem_cons.1 hk with rfl | hk
        · exact absurd hi hn
        · exact h5 ⟨k, hk, hn⟩
      · rw [h6 k]
        by_cases hk : k = key
        · subst hk; simp [hi]
        · simp [hk]
    · obtain ⟨rhs, rhsP, m, mP, e, r1, r2⟩ := h key (by simp) hi
      refine ⟨.npy rhs :: .npy rhsP :: R, m :: mP :: M, (key, rhs, rhsP) :: E, (key, .entry rhs rhsP m mP) :: D, ?_, fun F => ?_, fun M' => ?_, ?_, by simp, fun k => ?_⟩
      · simp only [storeKeys, hi, if_false, e, h1]
      · simp only [loadKeys, hi, if_false, List.cons_append, h2]
      · simp only [attach, List.cons_append, h3]
      · simp only [List.mem_cons]
        rintro x (rfl | rfl | hx)
        · exact r1
        · exact r2
        · exact h4 x hx
      · rw [List.lookup_cons]
        by_cases hk : k = key
        · subst hk; simp [hi, e]
        · have : (k == key) = false := by rw [beq_eq_false_iff_ne]; exact hk
          simp [this, h6 k, hk]

theorem lookup_mem {S : List (String × Item A P)} {k : String} {i : Item A P} (h : S.lookup k = some i) : (k, i) ∈ S := by
  induction S with
  | nil => simp at h
  | cons a S ih =>
    obtain ⟨a1, a2⟩ := a
    rw [List.lookup_cons] at h
    by_cases hk : k = a1
    · subst hk; simp at h; simp [h]
    · have : (k == a1) = false := by rw [beq_eq_false_iff_ne]; exact hk
      rw [this] at h
      exact List.mem_cons_of_mem _ (ih h)

theorem lookup_some {S : List (String × Item A P)} {k : String} : k ∈ S.map Prod.fst ↔ ∃ i, S.lookup k = some i := by
  constructor
  · intro h
    induction S with
    | nil => simp at h
    | cons a S ih =>
      obtain ⟨a1, a2⟩ := a
      rw [List.lookup_cons]
      by_cases hk : k = a1
      · subst hk; exact ⟨a2, by simp⟩
      · have : (k == a1) = false := by rw [beq_eq_false_iff_ne]; exact hk
        rw [this]
        exact ih (by simpa [hk] using h)
  · rintro ⟨i, h⟩
    exact List.mem_map.2 ⟨_, lookup_mem h, rfl⟩

theorem lookup_none {S : List (String × Item A P)} {k : String} (h : k ∉ S.map Prod.fst) : S.lookup k = none := by
  cases e : S.lookup k with
  | none => rfl
  | some i => exact absurd (lookup_some.2 ⟨i, e⟩) h

theorem lookup_append_or (D T : List (String × Item A P)) (k : String) : (D ++ T).lookup k = (D.lookup k).or (T.lookup k) := by
  induction D with
  | nil => simp
  | cons a D ih =>
    obtain ⟨a1, a2⟩ := a
    rw [List.cons_append, List.lookup_cons, List.lookup_cons, ih]
    split <;> simp

theorem precond_spec {S : List (String × Item A P)} (hS : Complete S) :
    ∃ M T, storePrecond S = .ok M ∧ loadPrecond (S.map Prod.fst) M = .ok T ∧ (∀ m ∈ M, Readable m) ∧ ("precond" ∈ S.map Prod.fst → M ≠ []) ∧
      ∀ k, T.lookup k = if k = "precond" ∨ k = "precond_p" then S.lookup k else none := by
  by_cases hp : "precond" ∈ S.map Prod.fst
  · obtain ⟨i, hi⟩ := lookup_some.1 hp
    obtain ⟨j, hj⟩ := lookup_some.1 (hS.precond.1 hp)
    obtain ⟨m, rfl, hm⟩ := hS.precondMat _ _ (lookup_mem hi) (Or.inl rfl)
    obtain ⟨mP, rfl, hmP⟩ := hS.precondMat _ _ (lookup_mem hj) (Or.inr rfl)
    refine ⟨[m, mP], [("precond", .mat m), ("precond_p", .mat mP)], ?_, ?_, ?_, by simp, fun k => ?_⟩
    · simp only [storePrecond, hp, if_true, matrixAt, hi, hj]
    · simp only [loadPrecond, hp, if_true]
    · simp only [List.mem_cons, List.not_mem_nil, or_false]
      rintro x (rfl | rfl)
      · exact hm
      · exact hmP
    · rw [List.lookup_cons, List.lookup_cons, List.lookup_nil]
      by_cases h1 : k = "precond"
      · subst h1; simp [hi]
      · by_cases h2 : k = "precond_p"
        · subst h2; simp [hj]
        · have a1 : (k == "precond") = false := by rw [beq_eq_false_iff_ne]; exact h1
          have a2 : (k == "precond_p") = false := by rw [beq_eq_false_iff_ne]; exact h2
          simp [h1, h2, a1, a2]
  · refine ⟨[], [], by simp only [storePrecond, hp, if_false], by simp only [loadPrecond, hp, if_false], by simp, fun h => absurd h hp, fun k => ?_⟩
    rw [List.lookup_nil]
    split
    · rename_i h
      rcases h with rfl | rfl
      · exact (lookup_none hp).symm
      · exact (lookup_none fun h => hp (hS.precond.2 h)).symm
    · rfl

/-- **C94** Every complete set of matrices can be stored, and the set read from the file has under every key what the
    stored set has. -/
theorem C94_set (S : List (String × Item A P)) (hS : Complete S) :
    ∃ F T, storeSet S = .ok F ∧ loadSet F = .ok T ∧ ∀ k, T.lookup k = S.lookup k := by
  obtain ⟨param, hparam⟩ := lookup_some.1 hS.param
  obtain ⟨perm, hperm⟩ := lookup_some.1 hS.permutation
  obtain ⟨R, M, E, D, h1, h2, h3, h4, h5, h6⟩ := keys_spec S (S.map Prod.fst) fun k hk hn => by
    obtain ⟨i, hi⟩ := lookup_some.1 hk
    obtain ⟨rhs, rhsP, m, mP, rfl, r1, r2⟩ := hS.entries k i (lookup_mem hi) hn
    exact ⟨rhs, rhsP, m, mP, hi, r1, r2⟩
  obtain ⟨M', T, q1, q2, q3, q4, q5⟩ := precond_spec hS
  have hne : M ++ M' ≠ [] := by
    obtain ⟨k, hk, n1, n2⟩ := hS.some
    by_cases hi : k ∈ ignoreList
    · have : "precond" ∈ S.map Prod.fst := by
        simp only [ignoreList, List.mem_cons, List.not_mem_nil, or_false] at hi
        rcases hi with rfl | rfl | rfl | rfl
        · exact absurd rfl n1
        · exact absurd rfl n2
        · exact hk
        · exact hS.precond.2 hk
      simp [q4 this]
    · simp [h5 ⟨k, hk, hi⟩]
  obtain ⟨d, s1, s2⟩ := C94_matrices (M ++ M') hne fun m hm => by
    rcases List.mem_append.1 hm with h | h
    · exact h4 m h
    · exact q3 m h
  have hrec : records S = .ok (.pickle param :: .pickle perm :: .keys (S.map Prod.fst) :: (R ++ [.npz d])) := by
    unfold records
    simp only [hparam, hperm, h1, q1, s1, bind, Except.bind, pure, Except.pure]
  have hload : loadSet (.pickle param :: .pickle perm :: .keys (S.map Prod.fst) :: (R ++ [.npz d])) =
      .ok (("param", param) :: ("permutation", perm) :: (D ++ T)) := by
    simp only [loadSet, loadRest, h2, s2, h3, q2]
  refine ⟨_, _, by simp only [storeSet, hrec, hload], hload, fun k => ?_⟩
  rw [List.lookup_cons, List.lookup_cons, lookup_append_or, h6, q5]
  by_cases c1 : k = "param"
  · subst c1; simp [hparam]
  by_cases c2 : k = "permutation"
  · subst c2; simp [hperm]
  have b1 : (k == "param") = false := by rw [beq_eq_false_iff_ne]; exact c1
  have b2 : (k == "permutation") = false := by rw [beq_eq_false_iff_ne]; exact c2
  rw [b1, b2]
  by_cases c3 : k = "precond" ∨ k = "precond_p"
  · have : k ∈ ignoreList := by rcases c3 with rfl | rfl <;> decide
    simp [this, c3]
  · have : k ∉ ignoreList := by
      simp only [ignoreList, List.mem_cons, List.not_mem_nil, or_false]
      tauto
    rw [if_neg c3]
    by_cases hk : k ∈ S.map Prod.fst
    · rw [if_pos ⟨hk, this⟩]; simp
    · rw [if_neg fun h => hk h.1, lookup_none hk]; rfl

/-- a complete set: one right-hand side and a preconditioner -/
def small : List (String × Item Nat Nat) :=
  [("all", .entry 1 2 (.compressed .csc 3 4 5 (2, 2)) (.compressed .csr 6 7 8 (2, 2))), ("precond", .mat (.dia 9 10 (2, 2))),
   ("precond_p", .mat (.dia 11 12 (2, 2))), ("param", .plain 13), ("permutation", .plain 14)]

example : Complete small := by
  refine ⟨by decide, by decide, by decide, by decide, ?_, ?_, ⟨"all", by decide, by decide, by decide⟩⟩
  · simp only [small, List.mem_cons, Prod.mk.injEq, List.not_mem_nil, or_false]
    rintro k i (⟨rfl, rfl⟩ | ⟨rfl, rfl⟩ | ⟨rfl, rfl⟩ | ⟨rfl, rfl⟩ | ⟨rfl, rfl⟩) h
    · simp at h
    · exact ⟨_, rfl, trivial⟩
    · exact ⟨_, rfl, trivial⟩
    · simp at h
    · simp at h
  · simp only [small, List.mem_cons, Prod.mk.injEq, List.not_mem_nil, or_false]
    rintro k i (⟨rfl, rfl⟩ | ⟨rfl, rfl⟩ | ⟨rfl, rfl⟩ | ⟨rfl, rfl⟩ | ⟨rfl, rfl⟩) h
    · exact ⟨_, _, _, _, rfl, trivial, trivial⟩
    all_goals simp at h

/-- **C94 (storing is checked).** When storing a set of matrices ends without error, the file can be read: what cannot be read back is reported while it is
stored. -/
theorem C94_checked (S : List (String × Item A P)) (F : List (Rec A P)) (h : storeSet S = .ok F) : ∃ T, loadSet F = .ok T := by
  unfold storeSet at h
  cases hr : records S with
  | error e => simp [hr] at h
  | ok G =>
    cases hl : loadSet G with
    | error e => simp [hr, hl] at h
    | ok T =>
      simp only [hr, hl, Except.ok.injEq] at h
      exact ⟨T, h ▸ hl⟩

/-- the set above is stored; with a matrix in the format `coo` it is written but cannot be read, and storing it is refused -/
example : (storeSet small).isOk = true ∧
    (records (("all", .entry 1 2 (.coo 3 4 5 (2, 2)) (.compressed .csr 6 7 8 (2, 2))) :: small.tail)).isOk = true ∧
    (storeSet (("all", .entry 1 2 (.coo 3 4 5 (2, 2)) (.compressed .csr 6 7 8 (2, 2))) :: small.tail)).isOk = false := by
  decide +kernel

end WxVerif.Props.AssemblyFiles
