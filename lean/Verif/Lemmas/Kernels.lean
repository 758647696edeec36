import Verif.Model.Kernels
import Verif.Spec.Threads
import Verif.Lemmas.Gather

namespace WxVerif.Kernels

open WxVerif.Flux WxVerif.Threads

theorem exec_append (m : Memory) (a b : List Op) : exec m (a ++ b) = exec (exec m a) b := List.foldl_append ..

theorem exec_cons (m : Memory) (a : Op) (b : List Op) : exec m (a :: b) = exec (a.run m) b := rfl

theorem run_comm {a b : Op} (h : ∀ x ∈ a.uses, x ∉ b.uses) (m : Memory) : b.run (a.run m) = a.run (b.run m) := by
  funext c
  cases a with
  | set d x =>
    cases b with
    | set e y =>
      have h1 : d ≠ e := fun he => h d (by simp [Op.uses]) (by simp [Op.uses, he])
      simp only [Op.run]
      split_ifs with h2 h3
      · exact absurd (h3 ▸ h2) h1
      · rfl
      · rfl
      · rfl
    | copy e s =>
      have h1 : d ≠ e := fun he => h d (by simp [Op.uses]) (by simp [Op.uses, he])
      have h2 : s ≠ d := fun he => h d (by simp [Op.uses]) (by simp [Op.uses, he])
      simp only [Op.run, if_neg h2]
      split_ifs with h3 h4
      · exact absurd (h4 ▸ h3) h1
      · rfl
      · rfl
      · rfl
  | copy d t =>
    cases b with
    | set e y =>
      have h1 : d ≠ e := fun he => h d (by simp [Op.uses]) (by simp [Op.uses, he])
      have h2 : t ≠ e := fun he => h t (by simp [Op.uses]) (by simp [Op.uses, he])
      simp only [Op.run, if_neg h2]
      split_ifs with h3 h4
      · exact absurd (h4 ▸ h3) h1
      · rfl
      · rfl
      · rfl
    | copy e s =>
      have h1 : d ≠ e := fun he => h d (by simp [Op.uses]) (by simp [Op.uses, he])
      have h2 : t ≠ e := fun he => h t (by simp [Op.uses]) (by simp [Op.uses, he])
      have h3 : s ≠ d := fun he => h d (by simp [Op.uses]) (by simp [Op.uses, he])
      simp only [Op.run, if_neg h2, if_neg h3]
      split_ifs with h4 h5
      · exact absurd (h5 ▸ h4) h1
      · rfl
      · rfl
      · rfl

theorem exec_comm {a : Op} : ∀ {l : List Op}, (∀ b ∈ l, ∀ x ∈ a.uses, x ∉ b.uses) → ∀ m, exec (a.run m) l = a.run (exec m l)
  | [], _, _ => rfl
  | b :: l, h, m => by
    rw [exec_cons, exec_cons, run_comm (h b List.mem_cons_self), exec_comm fun c hc => h c (List.mem_cons_of_mem _ hc)]

/-- two lists of operations that have no address in common -/
def Apart (p q : List Op) : Prop := ∀ a ∈ p, ∀ b ∈ q, ∀ x ∈ a.uses, x ∉ b.uses

/-- Threads that have no address in common: any interleaving leaves what running them one after the other leaves. -/
theorem interleaves_exec {ps : List (List Op)} {tr : List Op} (h : Interleaves ps tr) (hp : ps.Pairwise Apart) (m : Memory) :
    exec m tr = exec m ps.flatten := by
  induction h generalizing m with
  | done ps h =>
    have : ps.flatten = [] := List.flatten_eq_nil_iff.2 h
    rw [this]
  | step before op rest after tr _ ih =>
    rw [List.pairwise_append, List.pairwise_cons] at hp
    obtain ⟨h1, ⟨h2, h3⟩, h4⟩ := hp
    have hp' : (before ++ rest :: after).Pairwise Apart := by
      rw [List.pairwise_append, List.pairwise_cons]
      refine ⟨h1, ⟨fun q hq a ha => h2 q hq a (List.mem_cons_of_mem _ ha), h3⟩, fun p hpm q hq => ?_⟩
      rcases List.mem_cons.1 hq with rfl | hq
      · exact fun a ha b hb => h4 p hpm _ List.mem_cons_self a ha b (List.mem_cons_of_mem _ hb)
      · exact h4 p hpm q (List.mem_cons_of_mem _ hq)
    rw [exec_cons, ih hp']
    simp only [List.flatten_append, List.flatten_cons, exec_append, exec_cons]
    congr 2
    apply exec_comm
    intro b hb x hx hx'
    obtain ⟨p, hpm, hbp⟩ := List.mem_flatten.1 hb
    exact h4 p hpm _ List.mem_cons_self b hbp op List.mem_cons_self x hx' hx

/-- whatever the memory was, `p` leaves `x` at `a` -/
def Writes (p : List Op) (a : Addr) (x : ℝ) : Prop := ∀ m, exec m p a = x

/-- `p` leaves what was at `a` -/
def Leaves (p : List Op) (a : Addr) : Prop := ∀ m, exec m p a = m a

theorem exec_flatten_writes {ps : List (List Op)} {a : Addr} {x : ℝ} (h : ∀ p ∈ ps, Writes p a x ∨ Leaves p a) :
    ∀ m : Memory, (m a = x ∨ ∃ p ∈ ps, Writes p a x) → exec m ps.flatten a = x := by
  induction ps with
  | nil =>
    rintro m (h1 | ⟨p, hp, -⟩)
    · exact h1
    · cases hp
  | cons p ps ih =>
    intro m hm
    rw [List.flatten_cons, exec_append]
    apply ih fun q hq => h q (List.mem_cons_of_mem _ hq)
    rcases h p List.mem_cons_self with h1 | h1
    · exact Or.inl (h1 m)
    · rw [h1 m]
      rcases hm with h2 | ⟨q, hq, h2⟩
      · exact Or.inl h2
      · rcases List.mem_cons.1 hq with rfl | hq
        · exact Or.inl (by rw [← h1 m]; exact h2 m)
        · exact Or.inr ⟨q, hq, h2⟩

theorem exec_flatten_leaves {ps : List (List Op)} {a : Addr} (h : ∀ p ∈ ps, Leaves p a) (m : Memory) : exec m ps.flatten a = m a := by
  induction ps generalizing m with
  | nil => rfl
  | cons p ps ih =>
    rw [List.flatten_cons, exec_append, ih fun q hq => h q (List.mem_cons_of_mem _ hq)]
    exact h p List.mem_cons_self m

theorem leaves_of_uses {p : List Op} {a : Addr} (h : ∀ o ∈ p, a ∉ o.uses) : Leaves p a := by
  intro m
  induction p generalizing m with
  | nil => rfl
  | cons o p ih =>
    rw [exec_cons, ih fun q hq => h q (List.mem_cons_of_mem _ hq)]
    have := h o List.mem_cons_self
    cases o with
    | set b x => simp only [Op.uses, List.mem_singleton] at this; simp [Op.run, this]
    | copy d s => simp only [Op.uses, List.mem_cons] at this; push Not at this; simp [Op.run, this.1]

/-! ## Launches -/

theorem axis_eq (b d : Nat) : axis b d = List.range (b * d) := by
  unfold axis
  rw [Gather.range_flatMap_block]
  conv_rhs => rw [← List.map_id (List.range (b * d))]
  apply List.map_congr_left
  intro j _
  simp only [id]
  rw [Nat.mul_comm]
  exact Nat.div_add_mod j d

theorem numBlocks_covers (e : Nat) {d : Nat} (hd : 0 < d) : e ≤ numBlocks e d * d := by
  unfold numBlocks
  have h1 := Nat.div_add_mod (e + d - 1) d
  have h2 := Nat.mod_lt (e + d - 1) hd
  have h3 : d * ((e + d - 1) / d) = (e + d - 1) / d * d := Nat.mul_comm _ _
  omega

theorem mem_axis {e d i : Nat} (hd : 0 < d) (h : i < e) : i ∈ axis (numBlocks e d) d := by
  rw [axis_eq, List.mem_range]
  exact lt_of_lt_of_le h (numBlocks_covers e hd)

theorem axis_nodup (b d : Nat) : (axis b d).Nodup := by rw [axis_eq]; exact List.nodup_range

theorem mem_launch1 {e d : Nat} (hd : 0 < d) {body : Nat → List Op} {p : List Op} :
    p ∈ launch1 e d body → p = [] ∨ ∃ i < e, p = body i := by
  intro h
  obtain ⟨i, -, rfl⟩ := List.mem_map.1 h
  split_ifs with h1
  · exact Or.inr ⟨i, h1, rfl⟩
  · exact Or.inl rfl

theorem launch1_mem {e d : Nat} (hd : 0 < d) (body : Nat → List Op) {i : Nat} (h : i < e) : body i ∈ launch1 e d body :=
  List.mem_map.2 ⟨i, mem_axis hd h, if_pos h⟩

theorem apart_nil_left (p : List Op) : Apart [] p := fun a ha => by cases ha
theorem apart_nil_right (p : List Op) : Apart p [] := fun _ _ b hb => by cases hb

theorem launch1_pairwise {e d : Nat} {body : Nat → List Op} (h : ∀ i < e, ∀ i' < e, i ≠ i' → Apart (body i) (body i')) :
    (launch1 e d body).Pairwise Apart := by
  unfold launch1
  rw [List.pairwise_map]
  refine (axis_nodup _ _).imp ?_
  intro a b hab
  split_ifs with h1 h2
  · exact h a h1 b h2 hab
  · exact apart_nil_right _
  · exact apart_nil_left _
  · exact apart_nil_left _

theorem mem_launch2 {ex ey dx dy : Nat} {body : Nat → Nat → List Op} {p : List Op} :
    p ∈ launch2 ex ey dx dy body → p = [] ∨ ∃ x < ex, ∃ y < ey, p = body x y := by
  intro h
  obtain ⟨⟨x, y⟩, -, rfl⟩ := List.mem_map.1 h
  dsimp only
  split_ifs with h1
  · exact Or.inr ⟨x, h1.1, y, h1.2, rfl⟩
  · exact Or.inl rfl

theorem launch2_mem {ex ey dx dy : Nat} (hx : 0 < dx) (hy : 0 < dy) (body : Nat → Nat → List Op) {x y : Nat} (h1 : x < ex) (h2 : y < ey) :
    body x y ∈ launch2 ex ey dx dy body :=
  List.mem_map.2 ⟨(x, y), List.pair_mem_product.2 ⟨mem_axis hx h1, mem_axis hy h2⟩, if_pos ⟨h1, h2⟩⟩

theorem launch2_pairwise {ex ey dx dy : Nat} {body : Nat → Nat → List Op}
    (h : ∀ x < ex, ∀ y < ey, ∀ x' < ex, ∀ y' < ey, (x, y) ≠ (x', y') → Apart (body x y) (body x' y')) :
    (launch2 ex ey dx dy body).Pairwise Apart := by
  unfold launch2
  rw [List.pairwise_map]
  refine ((axis_nodup _ _).product (axis_nodup _ _)).imp ?_
  rintro ⟨x, y⟩ ⟨x', y'⟩ hab
  dsimp only
  split_ifs with h1 h2
  · exact h x h1.1 y h1.2 x' h2.1 y' h2.2 hab
  · exact apart_nil_right _
  · exact apart_nil_left _
  · exact apart_nil_left _

theorem mem_launch3 {ex ey ez dx dy dz : Nat} {body : Nat → Nat → Nat → List Op} {p : List Op} :
    p ∈ launch3 ex ey ez dx dy dz body → p = [] ∨ ∃ x < ex, ∃ y < ey, ∃ z < ez, p = body x y z := by
  intro h
  obtain ⟨⟨x, y, z⟩, -, rfl⟩ := List.mem_map.1 h
  dsimp only
  split_ifs with h1
  · exact Or.inr ⟨x, h1.1, y, h1.2.1, z, h1.2.2, rfl⟩
  · exact Or.inl rfl

theorem launch3_mem {ex ey ez dx dy dz : Nat} (hx : 0 < dx) (hy : 0 < dy) (hz : 0 < dz) (body : Nat → Nat → Nat → List Op) {x y z : Nat}
    (h1 : x < ex) (h2 : y < ey) (h3 : z < ez) : body x y z ∈ launch3 ex ey ez dx dy dz body :=
  List.mem_map.2 ⟨(x, y, z), List.pair_mem_product.2 ⟨mem_axis hx h1, List.pair_mem_product.2 ⟨mem_axis hy h2, mem_axis hz h3⟩⟩,
    if_pos ⟨h1, h2, h3⟩⟩

theorem launch3_pairwise {ex ey ez dx dy dz : Nat} {body : Nat → Nat → Nat → List Op}
    (h : ∀ x < ex, ∀ y < ey, ∀ z < ez, ∀ x' < ex, ∀ y' < ey, ∀ z' < ez, (x, y, z) ≠ (x', y', z') → Apart (body x y z) (body x' y' z')) :
    (launch3 ex ey ez dx dy dz body).Pairwise Apart := by
  unfold launch3
  rw [List.pairwise_map]
  refine ((axis_nodup _ _).product ((axis_nodup _ _).product (axis_nodup _ _))).imp ?_
  rintro ⟨x, y, z⟩ ⟨x', y', z'⟩ hab
  dsimp only
  split_ifs with h1 h2
  · exact h x h1.1 y h1.2.1 z h1.2.2 x' h2.1 y' h2.2.1 z' h2.2.2 hab
  · exact apart_nil_right _
  · exact apart_nil_left _
  · exact apart_nil_left _

theorem leaves_nil (a : Addr) : Leaves [] a := fun _ => rfl

/-- an execution of launches whose threads are apart leaves what the threads one after the other leave -/
theorem executes_exec {ls : List (List (List Op))} {tr : List Op} (h : Executes ls tr) (hp : ∀ l ∈ ls, l.Pairwise Apart) (m : Memory) :
    exec m tr = exec m ls.flatten.flatten := by
  induction h generalizing m with
  | nil => rfl
  | cons l ls t ts h1 _ ih =>
    rw [exec_append, interleaves_exec h1 (hp l List.mem_cons_self), ih fun l' hl' => hp l' (List.mem_cons_of_mem _ hl'), List.flatten_cons,
      List.flatten_append, exec_append]

/-! ## Kernels -/

/-- variable of an address -/
theorem var_split {v v' s i i' : Nat} (hi : i < s) (hi' : i' < s) (h : v * s + i = v' * s + i') : v = v' ∧ i = i' := by
  have h1 : (v * s + i) / s = v := by
    rw [Nat.add_comm, Nat.add_mul_div_right _ _ (by omega), Nat.div_eq_of_lt hi, Nat.zero_add]
  have h2 : (v' * s + i') / s = v' := by
    rw [Nat.add_comm, Nat.add_mul_div_right _ _ (by omega), Nat.div_eq_of_lt hi', Nat.zero_add]
  have h3 : v = v' := by rw [← h1, ← h2, h]
  subst h3
  exact ⟨rfl, by omega⟩

theorem storeState_uses {arr ind s : Nat} {st : State2} {o : Op} (ho : o ∈ storeState arr ind s st) {a : Addr} (ha : a ∈ o.uses) :
    ∃ v < 4, a = ⟨arr, v * s + ind⟩ := by
  simp only [storeState, List.mem_cons, List.not_mem_nil, or_false] at ho
  rcases ho with rfl | rfl | rfl | rfl <;> simp only [Op.uses, List.mem_singleton] at ha <;> subst ha
  · exact ⟨0, by omega, by simp⟩
  · exact ⟨1, by omega, by simp⟩
  · exact ⟨2, by omega, rfl⟩
  · exact ⟨3, by omega, rfl⟩

theorem storeState_writes {arr ind s v : Nat} (st : State2) (hi : ind < s) (hv : v < 4) :
    Writes (storeState arr ind s st) ⟨arr, v * s + ind⟩ (EulerCartesian.field v st) := by
  intro m
  have hv' : v = 0 ∨ v = 1 ∨ v = 2 ∨ v = 3 := by omega
  simp only [exec, storeState, List.foldl_cons, List.foldl_nil, Op.run, Addr.mk.injEq, true_and, EulerCartesian.field]
  rcases hv' with rfl | rfl | rfl | rfl <;> simp only [Nat.zero_mul, Nat.one_mul, Nat.zero_add, reduceIte, one_ne_zero, OfNat.ofNat_ne_zero,
    OfNat.ofNat_ne_one, Nat.reduceEqDiff, if_true, if_false]
  · rw [if_neg (by omega), if_neg (by omega), if_neg (by omega)]
  · rw [if_neg (by omega), if_neg (by omega)]
  · rw [if_neg (by omega)]

theorem faceOps_uses {q : Nat → ℝ} {dir l r s : Nat} {o : Op} (ho : o ∈ faceOps q dir l r s) {a : Addr} (ha : a ∈ o.uses) :
    ∃ v < 4, a = ⟨dir, v * s + l⟩ ∨ a = ⟨dir, v * s + r⟩ := by
  unfold faceOps at ho
  rcases List.mem_append.1 ho with ho | ho
  · obtain ⟨v, hv, h⟩ := storeState_uses ho ha
    exact ⟨v, hv, Or.inl h⟩
  · simp only [List.mem_cons, List.not_mem_nil, or_false] at ho
    rcases ho with rfl | rfl | rfl | rfl <;> simp only [Op.uses, List.mem_cons, List.not_mem_nil, or_false] at ha
    · exact ⟨0, by omega, by simpa [or_comm] using ha⟩
    · exact ⟨1, by omega, by simpa [or_comm] using ha⟩
    · exact ⟨2, by omega, ha.symm⟩
    · exact ⟨3, by omega, ha.symm⟩

theorem faceOps_writes {q : Nat → ℝ} {dir l r s v : Nat} (hl : l < s) (hr : r < s) (hlr : l ≠ r) (hv : v < 4) :
    Writes (faceOps q dir l r s) ⟨dir, v * s + l⟩ (EulerCartesian.field v (ausmKernel dir (readState q l s) (readState q r s)).1) ∧
    Writes (faceOps q dir l r s) ⟨dir, v * s + r⟩ (EulerCartesian.field v (ausmKernel dir (readState q l s) (readState q r s)).2) := by
  have hst : ∀ m, ∀ w < 4, exec m (storeState dir l s (ausmKernel dir (readState q l s) (readState q r s)).1) ⟨dir, w * s + l⟩ =
      EulerCartesian.field w (ausmKernel dir (readState q l s) (readState q r s)).1 := fun m w hw => storeState_writes _ hl hw m
  have e2 : (ausmKernel dir (readState q l s) (readState q r s)).2 = (ausmKernel dir (readState q l s) (readState q r s)).1 := rfl
  rw [e2]
  unfold faceOps
  generalize (ausmKernel dir (readState q l s) (readState q r s)).1 = f at hst ⊢
  have hv' : v = 0 ∨ v = 1 ∨ v = 2 ∨ v = 3 := by omega
  constructor <;> intro m <;> rw [exec_append, ← hst m v hv] <;> generalize exec m (storeState dir l s f) = M <;>
    simp only [exec, List.foldl_cons, List.foldl_nil, Op.run, Addr.mk.injEq, true_and] <;> rcases hv' with rfl | rfl | rfl | rfl <;>
    (try simp only [Nat.zero_mul, Nat.one_mul, Nat.zero_add, if_true]) <;> split_ifs <;> first | rfl | (exfalso; omega)

end WxVerif.Kernels
