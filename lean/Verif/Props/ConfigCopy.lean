import Verif.Model.ConfigCopy

/-!
# Property C107: copies of a configuration are independent
-/

namespace WxVerif.Props.ConfigCopy

open WxVerif.ConfigCopy

variable {A : Type}

/-- every list a configuration refers to exists -/
def Valid (h : Heap A) (c : Config A) : Prop := ∀ k n, (k, Val.ref n) ∈ c → n < h.next

/-- the lists a configuration refers to are among those with addresses `P` -/
def Within (P : Nat → Prop) (c : Config A) : Prop := ∀ k n, (k, Val.ref n) ∈ c → P n

theorem mem_of_lookup {c : List (String × Val A)} {k : String} {v : Val A} (h : c.lookup k = some v) : (k, v) ∈ c := by
  induction c with
  | nil => simp at h
  | cons x xs ih =>
    obtain ⟨k', v'⟩ := x
    rw [List.lookup_cons] at h
    by_cases e : (k == k') = true
    · rw [e] at h
      simp only [Option.some.injEq] at h
      rw [beq_iff_eq] at e
      subst e h
      exact List.mem_cons_self
    · rw [Bool.not_eq_true] at e
      rw [e] at h
      exact List.mem_cons_of_mem _ (ih h)

/-- a memo of copies made since the heap ended at `base` -/
def Good (base : Nat) (h0 h : Heap A) (memo : Memo) : Prop :=
  h0.next = base ∧ base ≤ h.next ∧ (∀ n < base, h.cells n = h0.cells n) ∧
  ∀ n n', memo.lookup n = some n' → base ≤ n' ∧ n' < h.next ∧ h.cells n' = h0.cells n

theorem deepcopyVal_good {base : Nat} {h0 h : Heap A} {memo : Memo} (hg : Good base h0 h memo) (v : Val A) (hv : ∀ n, v = .ref n → n < base) :
    let r := deepcopyVal h memo v
    Good base h0 r.1 r.2.1 ∧ h.next ≤ r.1.next ∧ (∀ m < h.next, r.1.cells m = h.cells m) ∧
    (∀ a, v = .atom a → r.2.2 = .atom a) ∧
    (∀ n, v = .ref n → ∃ n', r.2.2 = .ref n' ∧ base ≤ n' ∧ n' < r.1.next ∧ r.1.cells n' = h0.cells n) := by
  obtain ⟨g1, g2, g3, g4⟩ := hg
  cases v with
  | atom a => exact ⟨⟨g1, g2, g3, g4⟩, Nat.le_refl _, fun _ _ => rfl, fun _ h => h, fun n h => by cases h⟩
  | ref n =>
    have hn := hv n rfl
    cases hm : memo.lookup n with
    | some n' =>
      simp only [deepcopyVal, hm]
      obtain ⟨a1, a2, a3⟩ := g4 n n' hm
      refine ⟨⟨g1, g2, g3, g4⟩, Nat.le_refl _, fun _ _ => trivial, fun _ h => (by cases h), ?_⟩
      intro m hmn
      cases hmn
      exact ⟨n', rfl, a1, a2, a3⟩
    | none =>
      simp only [deepcopyVal, hm, alloc]
      have hc : h.cells n = h0.cells n := g3 n hn
      refine ⟨⟨g1, by (try simp only); omega, ?_, ?_⟩, by (try simp only); omega, ?_, fun _ h => (by cases h), ?_⟩
      · intro m hm'
        try simp only
        rw [if_neg (by omega)]
        exact g3 m hm'
      · intro m m' hmm
        rw [List.lookup_cons] at hmm
        by_cases e : (m == n) = true
        · rw [e] at hmm
          simp only [Option.some.injEq] at hmm
          rw [beq_iff_eq] at e
          subst e hmm
          exact ⟨g2, by (try simp only); omega, by show (if h.next = h.next then _ else _) = _; rw [if_pos rfl]; exact hc⟩
        · rw [Bool.not_eq_true] at e
          rw [e] at hmm
          obtain ⟨a1, a2, a3⟩ := g4 m m' hmm
          refine ⟨a1, by (try simp only); omega, ?_⟩
          simp only
          rw [if_neg (by omega)]
          exact a3
      · intro m hm'
        try simp only
        rw [if_neg (by omega)]
      · intro m hmn
        cases hmn
        exact ⟨h.next, rfl, g2, by (try simp only); omega, by rw [if_pos rfl]; exact hc⟩

theorem copyLoop_good {base : Nat} {h0 : Heap A} : ∀ (c : Config A) (h : Heap A) (memo : Memo), Good base h0 h memo → Within (· < base) c →
    let r := copyLoop h memo c
    (∀ m < h.next, r.1.cells m = h.cells m) ∧ h.next ≤ r.1.next ∧ Within (fun n => base ≤ n ∧ n < r.1.next) r.2 ∧
    r.2.map Prod.fst = c.map Prod.fst ∧ ∀ k, look r.1 r.2 k = look h0 c k
  | [], h, memo, _, _ => ⟨fun _ _ => rfl, Nat.le_refl _, fun k n hm => by simp [copyLoop] at hm, rfl, fun k => rfl⟩
  | (k, v) :: rest, h, memo, hg, hw => by
    intro r
    obtain ⟨b1, b2, b3, b4, b5⟩ := deepcopyVal_good hg v (fun n hn => hw k n (by rw [hn]; exact List.mem_cons_self))
    obtain ⟨c1, c2, c3, c4, c5⟩ := copyLoop_good rest (deepcopyVal h memo v).1 (deepcopyVal h memo v).2.1 b1
      (fun k n hm => hw k n (List.mem_cons_of_mem _ hm))
    have hr : r = ((copyLoop (deepcopyVal h memo v).1 (deepcopyVal h memo v).2.1 rest).1,
      (k, (deepcopyVal h memo v).2.2) :: (copyLoop (deepcopyVal h memo v).1 (deepcopyVal h memo v).2.1 rest).2) := rfl
    rw [hr]
    refine ⟨?_, Nat.le_trans b2 c2, ?_, ?_, ?_⟩
    · intro m hm
      show (copyLoop (deepcopyVal h memo v).1 (deepcopyVal h memo v).2.1 rest).1.cells m = _
      rw [c1 m (Nat.lt_of_lt_of_le hm b2), b3 m hm]
    · intro k' n hm
      rcases List.mem_cons.1 hm with e | hm
      · have e2 : Val.ref n = (deepcopyVal h memo v).2.2 := (Prod.mk.inj e).2
        cases v with
        | atom a => rw [b4 a rfl] at e2; cases e2
        | ref m =>
          obtain ⟨n', d1, d2, d3, -⟩ := b5 m rfl
          rw [d1] at e2
          cases e2
          exact ⟨d2, Nat.lt_of_lt_of_le d3 c2⟩
      · exact c3 k' n hm
    · rw [List.map_cons, List.map_cons, c4]
    · intro k'
      have hl := c5 k'
      unfold look at hl ⊢
      rw [List.lookup_cons, List.lookup_cons]
      cases e : (k' == k) with
      | false => exact hl
      | true =>
        cases v with
        | atom a => rw [b4 a rfl]
        | ref m =>
          obtain ⟨n', d1, d2, d3, d4⟩ := b5 m rfl
          rw [d1]
          simp only
          rw [c1 n' d3, d4]

/-- **C107 (the copy has the same values).** Every attribute read through the copy gives what it gives through the original, and the
original still gives what it gave. -/
theorem C107_same (h : Heap A) (c : Config A) (hc : Valid h c) (k : String) :
    look (deepcopy h c).1 (deepcopy h c).2 k = look h c k ∧ look (deepcopy h c).1 c k = look h c k := by
  have hg : Good h.next h h [] := ⟨rfl, Nat.le_refl _, fun _ _ => rfl, fun n n' hm => by simp at hm⟩
  obtain ⟨a1, -, -, -, a5⟩ := copyLoop_good c h [] hg hc
  refine ⟨a5 k, ?_⟩
  unfold look
  cases hl : c.lookup k with
  | none => rfl
  | some v =>
    cases v with
    | atom a => rfl
    | ref n => exact congrArg (fun l => some (Sum.inr l)) (a1 n (hc k n (mem_of_lookup hl)))

theorem mem_setattr {k k' : String} {v w : Val A} {c : Config A} (h : (k', w) ∈ setattr k v c) : w = v ∨ (k', w) ∈ c := by
  induction c with
  | nil =>
    simp only [setattr, List.mem_singleton, Prod.mk.injEq] at h
    exact Or.inl h.2
  | cons x xs ih =>
    obtain ⟨k1, v1⟩ := x
    rw [setattr] at h
    split at h
    · rcases List.mem_cons.1 h with e | e
      · exact Or.inl (Prod.mk.inj e).2
      · exact Or.inr (List.mem_cons_of_mem _ e)
    · rcases List.mem_cons.1 h with e | e
      · rw [e]; exact Or.inr List.mem_cons_self
      · rcases ih e with e | e
        · exact Or.inl e
        · exact Or.inr (List.mem_cons_of_mem _ e)

/-- changes made through a configuration whose lists are not among the old ones leave the old ones alone -/
theorem applyAll_frame (P : Nat → Prop) (top : Nat) (hP : ∀ n, P n → n < top) : ∀ (ops : List (Op A)) (h : Heap A) (c : Config A), top ≤ h.next →
    Within (fun n => ¬ P n) c → ∀ n, P n → (applyAll h c ops).1.cells n = h.cells n
  | [], _, _, _, _, _, _ => rfl
  | op :: ops, h, c, ht, hw, n, hn => by
    show (applyAll (apply h c op).1 (apply h c op).2 ops).1.cells n = _
    cases op with
    | assign k a =>
      exact applyAll_frame P top hP ops h _ ht (fun k' m hm => by
        rcases mem_setattr hm with e | e
        · cases e
        · exact hw k' m e) n hn
    | assignList k l =>
      have := applyAll_frame P top hP ops (alloc h l).1 (setattr k (.ref h.next) c) (by simp only [alloc]; omega) (fun k' m hm => by
        rcases mem_setattr hm with e | e
        · cases e
          intro hp
          have := hP _ hp
          omega
        · exact hw k' m e) n hn
      refine Eq.trans this ?_
      have := hP n hn
      simp only [alloc]
      rw [if_neg (by omega)]
    | inPlace k f =>
      cases hl : c.lookup k with
      | none =>
        have e : apply h c (.inPlace k f) = (h, c) := by simp only [apply, hl]
        rw [e]
        exact applyAll_frame P top hP ops h c ht hw n hn
      | some v =>
        cases v with
        | atom a =>
          have e : apply h c (.inPlace k f) = (h, c) := by simp only [apply, hl]
          rw [e]
          exact applyAll_frame P top hP ops h c ht hw n hn
        | ref m =>
          have e : apply h c (.inPlace k f) = (⟨fun m' => if m' = m then f (h.cells m) else h.cells m', h.next⟩, c) := by
            simp only [apply, hl]
          rw [e]
          refine Eq.trans (applyAll_frame P top hP ops ⟨fun m' => if m' = m then f (h.cells m) else h.cells m', h.next⟩ c ht hw n hn) ?_
          have : n ≠ m := fun e => hw k m (mem_of_lookup hl) (e ▸ hn)
          simp only
          rw [if_neg this]

/-- **C107 (changing the copy).** Whatever is assigned or changed in place through the copy, and however often, every attribute of the
original keeps its value. -/
theorem C107_original_kept (h : Heap A) (c : Config A) (hc : Valid h c) (ops : List (Op A)) (k : String) :
    look (applyAll (deepcopy h c).1 (deepcopy h c).2 ops).1 c k = look h c k := by
  have hg : Good h.next h h [] := ⟨rfl, Nat.le_refl _, fun _ _ => rfl, fun n n' hm => by simp at hm⟩
  obtain ⟨a1, a2, a3, -, -⟩ := copyLoop_good c h [] hg hc
  have hfr := applyAll_frame (fun n => n < h.next) h.next (fun _ h => h) ops (deepcopy h c).1 (deepcopy h c).2 a2
    (fun k n hm => by have := a3 k n hm; omega)
  unfold look
  cases hl : c.lookup k with
  | none => rfl
  | some v =>
    cases v with
    | atom a => rfl
    | ref n =>
      have hn := hc k n (mem_of_lookup hl)
      exact congrArg (fun l => some (Sum.inr l)) ((hfr n hn).trans (a1 n hn))

/-- **C107 (changing the original).** Whatever is assigned or changed in place through the original afterwards, every attribute of the
copy keeps the value it had when the copy was made. -/
theorem C107_copy_kept (h : Heap A) (c : Config A) (hc : Valid h c) (ops : List (Op A)) (k : String) :
    look (applyAll (deepcopy h c).1 c ops).1 (deepcopy h c).2 k = look h c k := by
  have hg : Good h.next h h [] := ⟨rfl, Nat.le_refl _, fun _ _ => rfl, fun n n' hm => by simp at hm⟩
  obtain ⟨a1, a2, a3, -, a5⟩ := copyLoop_good c h [] hg hc
  have hfr := applyAll_frame (fun n => h.next ≤ n ∧ n < (deepcopy h c).1.next) (deepcopy h c).1.next (fun _ h => h.2) ops (deepcopy h c).1 c
    (Nat.le_refl _) (fun k n hm => by have := hc k n hm; omega)
  have a5' : look (deepcopy h c).1 (deepcopy h c).2 k = look h c k := a5 k
  rw [← a5']
  unfold look
  cases hl : (deepcopy h c).2.lookup k with
  | none => rfl
  | some v =>
    cases v with
    | atom a => rfl
    | ref n => exact congrArg (fun l => some (Sum.inr l)) (hfr n (a3 k n (mem_of_lookup hl)))

/-- a value with its address renamed -/
def rename (μ : Nat → Nat) : Val A → Val A
  | .atom a => .atom a
  | .ref n => .ref (μ n)

theorem copyLoop_rename : ∀ (c : Config A) (h : Heap A) (memo : Memo), (∀ n n', memo.lookup n = some n' → n' < h.next) →
    (∀ n m a, memo.lookup n = some a → memo.lookup m = some a → n = m) →
    ∃ μ : Nat → Nat, (∀ n n', memo.lookup n = some n' → μ n = n') ∧ (copyLoop h memo c).2 = c.map (fun x => (x.1, rename μ x.2)) ∧
      ∀ n m, ((∃ k, (k, Val.ref n) ∈ c) ∨ memo.lookup n ≠ none) → ((∃ k, (k, Val.ref m) ∈ c) ∨ memo.lookup m ≠ none) → μ n = μ m → n = m
  | [], h, memo, _, hi => by
    have key : ∀ n n', memo.lookup n = some n' → (memo.lookup n).getD 0 = n' := fun n n' e => by rw [e]; rfl
    refine ⟨fun n => (memo.lookup n).getD 0, key, rfl, ?_⟩
    intro n m hn hm e
    have hn : memo.lookup n ≠ none := by rcases hn with ⟨k, hk⟩ | hn; · simp at hk
                                         · exact hn
    have hm : memo.lookup m ≠ none := by rcases hm with ⟨k, hk⟩ | hm; · simp at hk
                                         · exact hm
    obtain ⟨a, ha⟩ := Option.ne_none_iff_exists'.1 hn
    obtain ⟨b, hb⟩ := Option.ne_none_iff_exists'.1 hm
    simp only [ha, hb, Option.getD_some] at e
    exact hi n m a ha (e ▸ hb)
  | (k, .atom a) :: rest, h, memo, hb, hi => by
    obtain ⟨μ, h1, h2, h3⟩ := copyLoop_rename rest h memo hb hi
    refine ⟨μ, h1, ?_, ?_⟩
    · show (k, Val.atom a) :: (copyLoop h memo rest).2 = _
      rw [h2]; rfl
    · have key : ∀ n, ((∃ k', (k', Val.ref n) ∈ (k, Val.atom a) :: rest) ∨ memo.lookup n ≠ none) → ((∃ k', (k', Val.ref n) ∈ rest) ∨ memo.lookup n ≠ none) := by
        rintro n (⟨k', hk⟩ | hn)
        · rcases List.mem_cons.1 hk with e | e
          · cases (Prod.mk.inj e).2
          · exact Or.inl ⟨k', e⟩
        · exact Or.inr hn
      exact fun n m hn hm => h3 n m (key n hn) (key m hm)
  | (k, .ref r) :: rest, h, memo, hb, hi => by
    cases hm : memo.lookup r with
    | some r' =>
      obtain ⟨μ, h1, h2, h3⟩ := copyLoop_rename rest h memo hb hi
      refine ⟨μ, h1, ?_, ?_⟩
      · have e : copyLoop h memo ((k, .ref r) :: rest) = ((copyLoop h memo rest).1, (k, .ref r') :: (copyLoop h memo rest).2) := by
          simp only [copyLoop, deepcopyVal, hm]
        rw [e, h2, List.map_cons, rename, h1 r r' hm]
      · have key : ∀ n, ((∃ k', (k', Val.ref n) ∈ (k, Val.ref r) :: rest) ∨ memo.lookup n ≠ none) → ((∃ k', (k', Val.ref n) ∈ rest) ∨ memo.lookup n ≠ none) := by
          rintro n (⟨k', hk⟩ | hn)
          · rcases List.mem_cons.1 hk with e | e
            · cases (Prod.mk.inj e).2
              exact Or.inr (by rw [hm]; simp)
            · exact Or.inl ⟨k', e⟩
          · exact Or.inr hn
        exact fun n m hn hm => h3 n m (key n hn) (key m hm)
    | none =>
      have hlk : ∀ n n', ((r, h.next) :: memo).lookup n = some n' → (n = r ∧ n' = h.next) ∨ (n ≠ r ∧ memo.lookup n = some n') := by
        intro n n' e
        rw [List.lookup_cons] at e
        by_cases en : n = r
        · subst en
          simp only [beq_self_eq_true, Option.some.injEq] at e
          exact Or.inl ⟨rfl, e.symm⟩
        · rw [beq_false_of_ne en] at e
          exact Or.inr ⟨en, e⟩
      have hself : ((r, h.next) :: memo).lookup r = some h.next := by rw [List.lookup_cons]; simp
      have hold : ∀ n n', memo.lookup n = some n' → ((r, h.next) :: memo).lookup n = some n' := by
        intro n n' e
        have en : n ≠ r := by rintro rfl; rw [hm] at e; cases e
        rw [List.lookup_cons, beq_false_of_ne en]
        exact e
      obtain ⟨μ, h1, h2, h3⟩ := copyLoop_rename rest (alloc h (h.cells r)).1 ((r, h.next) :: memo)
        (by
          intro n n' e
          show n' < h.next + 1
          rcases hlk n n' e with ⟨-, rfl⟩ | ⟨-, e⟩
          · omega
          · have := hb n n' e; omega)
        (by
          intro n m a e1 e2
          rcases hlk n a e1 with ⟨rfl, rfl⟩ | ⟨-, e1⟩
          · rcases hlk m _ e2 with ⟨rfl, -⟩ | ⟨-, e2⟩
            · rfl
            · have := hb m _ e2; omega
          · rcases hlk m _ e2 with ⟨-, e3⟩ | ⟨-, e3⟩
            · have := hb n _ (by assumption : memo.lookup n = some a); omega
            · exact hi n m a (by assumption) e3)
      refine ⟨μ, fun n n' e => h1 n n' (hold n n' e), ?_, ?_⟩
      · have e : copyLoop h memo ((k, .ref r) :: rest) = ((copyLoop (alloc h (h.cells r)).1 ((r, h.next) :: memo) rest).1,
            (k, .ref h.next) :: (copyLoop (alloc h (h.cells r)).1 ((r, h.next) :: memo) rest).2) := by
          simp only [copyLoop, deepcopyVal, hm]; rfl
        rw [e, h2, List.map_cons, rename, h1 r h.next hself]
      · have key : ∀ n, ((∃ k', (k', Val.ref n) ∈ (k, Val.ref r) :: rest) ∨ memo.lookup n ≠ none) →
            ((∃ k', (k', Val.ref n) ∈ rest) ∨ ((r, h.next) :: memo).lookup n ≠ none) := by
          rintro n (⟨k', hk⟩ | hn)
          · rcases List.mem_cons.1 hk with e | e
            · cases (Prod.mk.inj e).2
              exact Or.inr (by rw [hself]; simp)
            · exact Or.inl ⟨k', e⟩
          · obtain ⟨a, ha⟩ := Option.ne_none_iff_exists'.1 hn
            exact Or.inr (by rw [hold n a ha]; simp)
        exact fun n m hn hm => h3 n m (key n hn) (key m hm)

theorem lookup_rename (μ : Nat → Nat) (c : Config A) (k : String) :
    (c.map fun x => (x.1, rename μ x.2)).lookup k = (c.lookup k).map (rename μ) := by
  induction c with
  | nil => rfl
  | cons x xs ih =>
    rw [List.map_cons, List.lookup_cons, List.lookup_cons]
    cases (k == x.1) with
    | true => rfl
    | false => exact ih

/-- **C107 (sharing).** Two attributes of the copy hold one and the same list exactly when those of the original do: changing the list
through one of them in place is seen through the other in the copy as it was in the original. -/
theorem C107_sharing (h : Heap A) (c : Config A) (k k' : String) :
    (∃ n, (deepcopy h c).2.lookup k = some (.ref n) ∧ (deepcopy h c).2.lookup k' = some (.ref n)) ↔
      ∃ n, c.lookup k = some (.ref n) ∧ c.lookup k' = some (.ref n) := by
  obtain ⟨μ, -, h2, h3⟩ := copyLoop_rename c h [] (fun n n' e => by simp at e) (fun n m a e => by simp at e)
  have e : (deepcopy h c).2 = c.map fun x => (x.1, rename μ x.2) := h2
  rw [e, lookup_rename, lookup_rename]
  have inv : ∀ (v : Option (Val A)) (n : Nat), v.map (rename μ) = some (.ref n) → ∃ m, v = some (.ref m) ∧ μ m = n := by
    intro v n hv
    rcases v with _ | (a | m)
    · cases hv
    · cases hv
    · exact ⟨m, rfl, by simpa [rename] using hv⟩
  constructor
  · rintro ⟨n, e1, e2⟩
    obtain ⟨m1, a1, b1⟩ := inv _ n e1
    obtain ⟨m2, a2, b2⟩ := inv _ n e2
    have := h3 m1 m2 (Or.inl ⟨k, mem_of_lookup a1⟩) (Or.inl ⟨k', mem_of_lookup a2⟩) (b1.trans b2.symm)
    exact ⟨m1, a1, this ▸ a2⟩
  · rintro ⟨n, e1, e2⟩
    exact ⟨μ n, by rw [e1]; rfl, by rw [e2]; rfl⟩

/-- a heap with two lists -/
def exHeap : Heap Int := ⟨fun n => if n = 0 then [1, 2] else if n = 1 then [5] else [], 2⟩
/-- two attributes share a list -/
def exConfig : Config Int := [("dt", .atom 30), ("radii", .ref 0), ("iters", .ref 1), ("alias", .ref 0)]

example : Valid exHeap exConfig := by
  intro k n h
  simp only [exConfig, List.mem_cons, Prod.mk.injEq, List.not_mem_nil, or_false, reduceCtorEq, and_false, false_or, Val.ref.injEq] at h
  have : exHeap.next = 2 := rfl
  omega

/-- the copy is changed in place, and shares its own list between the two attributes; the original is not changed -/
example :
    let r := applyAll (deepcopy exHeap exConfig).1 (deepcopy exHeap exConfig).2 [.inPlace "radii" (· ++ [3]), .assign "dt" 0]
    look r.1 r.2 "alias" = some (.inr [1, 2, 3]) ∧ look r.1 r.2 "dt" = some (.inl 0) ∧ look r.1 exConfig "radii" = some (.inr [1, 2]) ∧
    look r.1 exConfig "dt" = some (.inl 30) := by decide

/-- with `copy.copy` alone it would be -/
example : look (applyAll exHeap exConfig [.inPlace "radii" (· ++ [3])]).1 exConfig "radii" ≠ look exHeap exConfig "radii" := by decide

end WxVerif.Props.ConfigCopy
