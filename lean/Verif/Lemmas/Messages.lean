import Verif.Spec.Messages
import Mathlib.Data.List.Basic
import Mathlib.Tactic.SplitIfs

/-!
Programs that are the projections of one sequence of messages never get stuck, and all their executions end with the same buffers.
-/

namespace WxVerif.Messages

variable {α β : Type} [DecidableEq β]

/-- a message, with the buffer it is received in -/
structure Msg (α β : Type) where
  src : Nat
  dst : Nat
  tag : Nat
  data : α
  buf : β

/-- calls that process `r` still has to make for a message that has not been sent (0), is stored (1) or has been received (2) -/
def rem (r : Nat) (x : Msg α β × Nat) : List (Act α β) :=
  if x.2 = 0 ∧ x.1.src = r then [.send (some x.1.dst) x.1.tag x.1.data]
  else if x.2 < 2 ∧ x.1.dst = r then [.recv (some x.1.src) x.1.tag x.1.buf] else []

def flight (s d t : Nat) (x : Msg α β × Nat) : List α := if x.2 = 1 ∧ x.1.src = s ∧ x.1.dst = d ∧ x.1.tag = t then [x.1.data] else []

def upd (r : Nat) (b : β) (a : α) (x : Msg α β × Nat) : α := if x.2 = 2 ∧ x.1.dst = r ∧ x.1.buf = b then x.1.data else a

/-- calls of process `r` for a sequence of messages -/
def project (L : List (Msg α β)) (r : Nat) : List (Act α β) := L.flatMap fun m => rem r (m, 0)

/-- buffers after all messages of a sequence -/
def deliverAll (buf : Nat → β → α) (L : List (Msg α β)) (r : Nat) (b : β) : α :=
  L.foldl (fun a m => if m.dst = r ∧ m.buf = b then m.data else a) (buf r b)

def Ordered (x y : Msg α β × Nat) : Prop :=
  (x.1.src = y.1.src → 1 ≤ y.2 → 1 ≤ x.2) ∧ (x.1.dst = y.1.dst → y.2 = 2 → x.2 = 2)

/-- how far a state has come -/
structure Inv (L : List (Msg α β)) (buf : Nat → β → α) (σ : State α β) (S : List (Msg α β × Nat)) : Prop where
  msgs : S.map Prod.fst = L
  prog : ∀ r, σ.prog r = S.flatMap (rem r)
  stored : ∀ s d t, σ.stored s d t = S.flatMap (flight s d t)
  bufs : ∀ r b, σ.buf r b = S.foldl (upd r b) (buf r b)
  order : S.Pairwise Ordered
  le : ∀ x ∈ S, x.2 ≤ 2

theorem flatMap_head {γ δ : Type} {f : γ → List δ} {l : List γ} {a : δ} {rest : List δ} (h : l.flatMap f = a :: rest) :
    ∃ A x B r', l = A ++ x :: B ∧ (∀ y ∈ A, f y = []) ∧ f x = a :: r' ∧ rest = r' ++ B.flatMap f := by
  induction l with
  | nil => simp at h
  | cons y l ih =>
    rw [List.flatMap_cons] at h
    cases hy : f y with
    | nil =>
      rw [hy, List.nil_append] at h
      obtain ⟨A, x, B, r', rfl, h1, h2, h3⟩ := ih h
      refine ⟨y :: A, x, B, r', rfl, fun z hz => ?_, h2, h3⟩
      rcases List.mem_cons.1 hz with rfl | hz
      · exact hy
      · exact h1 z hz
    | cons b r =>
      rw [hy, List.cons_append, List.cons.injEq] at h
      exact ⟨[], y, l, r, rfl, by simp, by rw [hy, h.1], h.2.symm⟩

theorem flatMap_nil {γ δ : Type} {f : γ → List δ} {A : List γ} (h : ∀ y ∈ A, f y = []) : A.flatMap f = [] := List.flatMap_eq_nil_iff.2 h

/-- the first call of a process in terms of the sequence -/
theorem head_send {r d t : Nat} {x : α} {S : List (Msg α β × Nat)} {rest : List (Act α β)}
    (h : S.flatMap (rem r) = .send (some d) t x :: rest) :
    ∃ A m B, S = A ++ (m, 0) :: B ∧ (∀ y ∈ A, rem r y = []) ∧ m.src = r ∧ m.dst = d ∧ m.tag = t ∧ m.data = x ∧ rest = B.flatMap (rem r) := by
  obtain ⟨A, ⟨m, k⟩, B, r', e, h1, h2, h3⟩ := flatMap_head h
  unfold rem at h2
  split_ifs at h2 with c1 c2
  · simp only [List.cons.injEq, Act.send.injEq, Option.some.injEq] at h2
    obtain ⟨⟨h4, h5, h6⟩, h7⟩ := h2
    obtain ⟨rfl, h8⟩ := c1
    subst h7
    exact ⟨A, m, B, e, h1, h8, h4, h5, h6, h3⟩
  · simp at h2

theorem head_recv {r s t : Nat} {b : β} {S : List (Msg α β × Nat)} {rest : List (Act α β)}
    (h : S.flatMap (rem r) = .recv (some s) t b :: rest) :
    ∃ A m k B, S = A ++ (m, k) :: B ∧ k < 2 ∧ ¬ (k = 0 ∧ m.src = r) ∧ (∀ y ∈ A, rem r y = []) ∧ m.src = s ∧ m.dst = r ∧ m.tag = t ∧ m.buf = b ∧
      rest = B.flatMap (rem r) := by
  obtain ⟨A, ⟨m, k⟩, B, r', e, h1, h2, h3⟩ := flatMap_head h
  unfold rem at h2
  split_ifs at h2 with c1 c2
  · simp at h2
  · simp only [List.cons.injEq, Act.recv.injEq, Option.some.injEq] at h2
    obtain ⟨⟨h4, h5, h6⟩, h7⟩ := h2
    subst h7
    exact ⟨A, m, k, B, e, c2.1, c1, h1, h4, c2.2, h5, h6, h3⟩

theorem inv_start (L : List (Msg α β)) (buf : Nat → β → α) : Inv L buf (start (project L) buf) (L.map fun m => (m, 0)) where
  msgs := by simp [Function.comp_def]
  prog r := by simp [start, project, List.flatMap_map]
  stored s d t := by
    simp only [start]
    symm
    rw [List.flatMap_map]
    exact flatMap_nil fun m _ => by simp [flight]
  bufs r b := by
    simp only [start, List.foldl_map]
    induction L with
    | nil => rfl
    | cons m L ih =>
      rw [List.foldl_cons, show upd r b (buf r b) (m, 0) = buf r b by simp [upd]]
      exact ih
  order := by
    rw [List.pairwise_map]
    exact List.pairwise_of_forall fun a b => ⟨fun _ h => by simp at h, fun _ h => by simp at h⟩
  le x hx := by
    obtain ⟨m, -, rfl⟩ := List.mem_map.1 hx
    simp

theorem foldl_upd_done {r : Nat} {b : β} {S : List (Msg α β × Nat)} (h : ∀ x ∈ S, x.1.dst = r → x.2 ≠ 2) (a : α) : S.foldl (upd r b) a = a := by
  induction S generalizing a with
  | nil => rfl
  | cons x S ih =>
    rw [List.foldl_cons, ih fun y hy => h y (List.mem_cons_of_mem _ hy)]
    unfold upd
    rw [if_neg]
    rintro ⟨h1, h2, -⟩
    exact h x List.mem_cons_self h2 h1

/-- the status of one message changes from `k` to `k'` -/
theorem inv_change {L : List (Msg α β)} {buf : Nat → β → α} {σ τ : State α β} {A B : List (Msg α β × Nat)} {m : Msg α β} {k k' : Nat}
    (hI : Inv L buf σ (A ++ (m, k) :: B)) (hk : k ≤ k') (hk' : k' ≤ 2)
    (hs : 1 ≤ k' → ∀ x ∈ A, x.1.src = m.src → 1 ≤ x.2) (hd : k' = 2 → ∀ x ∈ A, x.1.dst = m.dst → x.2 = 2)
    (hp : ∀ r, τ.prog r = (A ++ (m, k') :: B).flatMap (rem r))
    (hc : ∀ s d t, τ.stored s d t = (A ++ (m, k') :: B).flatMap (flight s d t))
    (hb : ∀ r b, τ.buf r b = (A ++ (m, k') :: B).foldl (upd r b) (buf r b)) : Inv L buf τ (A ++ (m, k') :: B) where
  msgs := by rw [← hI.msgs]; simp
  prog := hp
  stored := hc
  bufs := hb
  order := by
    have h := hI.order
    rw [List.pairwise_append, List.pairwise_cons] at h ⊢
    obtain ⟨h1, ⟨h2, h3⟩, h4⟩ := h
    refine ⟨h1, ⟨fun y hy => ?_, h3⟩, fun x hx y hy => ?_⟩
    · obtain ⟨a1, a2⟩ := h2 y hy
      refine ⟨fun e he => Nat.le_trans (a1 e he) hk, fun e he => ?_⟩
      have : k = 2 := a2 e he
      show k' = 2
      omega
    · rcases List.mem_cons.1 hy with rfl | hy
      · exact ⟨fun e he => hs he x hx e, fun e he => hd he x hx e⟩
      · exact h4 x hx y (List.mem_cons_of_mem _ hy)
  le := by
    intro x hx
    rcases List.mem_append.1 hx with hx | hx
    · exact hI.le x (List.mem_append_left _ hx)
    · rcases List.mem_cons.1 hx with rfl | hx
      · exact hk'
      · exact hI.le x (List.mem_append_right _ (List.mem_cons_of_mem _ hx))

theorem split_unique {γ : Type} {P Q : γ → Prop} {A B A' B' : List γ} {x y : γ} (h : A ++ x :: B = A' ++ y :: B') (hA : ∀ a ∈ A, P a) (hy : ¬ P y)
    (hA' : ∀ a ∈ A', Q a) (hx : ¬ Q x) : A = A' ∧ x = y ∧ B = B' := by
  rcases List.append_eq_append_iff.1 h with ⟨C, rfl, h2⟩ | ⟨C, rfl, h2⟩
  · cases C with
    | nil => simp only [List.nil_append, List.cons.injEq] at h2; exact ⟨by simp, h2.1, h2.2⟩
    | cons c C =>
      simp only [List.cons_append, List.cons.injEq] at h2
      exact absurd (hA' c (by simp)) (by rw [← h2.1]; exact hx)
  · cases C with
    | nil => simp only [List.nil_append, List.cons.injEq] at h2; exact ⟨by simp, h2.1.symm, h2.2.symm⟩
    | cons c C =>
      simp only [List.cons_append, List.cons.injEq] at h2
      exact absurd (hA c (by simp)) (by rw [← h2.1]; exact hy)

theorem rem_nil_src {r : Nat} {x : Msg α β × Nat} (h : rem r x = []) (e : x.1.src = r) : 1 ≤ x.2 := by
  unfold rem at h
  split_ifs at h with c1 c2
  · exact Nat.one_le_iff_ne_zero.2 fun h0 => c1 ⟨h0, e⟩

theorem rem_nil_dst {r : Nat} {x : Msg α β × Nat} (h : rem r x = []) (hle : x.2 ≤ 2) (e : x.1.dst = r) : x.2 = 2 := by
  unfold rem at h
  split_ifs at h with c1 c2
  · have : ¬ x.2 < 2 := fun h' => c2 ⟨h', e⟩
    omega

theorem flight_nil {s d t : Nat} {S : List (Msg α β × Nat)} (h : ∀ x ∈ S, x.1.src = s → x.1.dst = d → x.2 ≠ 1) : S.flatMap (flight s d t) = [] := by
  refine flatMap_nil fun x hx => ?_
  unfold flight
  rw [if_neg]
  rintro ⟨h1, h2, h3, -⟩
  exact h x hx h2 h3 h1

theorem inv_store {L : List (Msg α β)} {buf : Nat → β → α} {σ : State α β} {S : List (Msg α β × Nat)} (hL : ∀ m ∈ L, m.src ≠ m.dst)
    (hI : Inv L buf σ S) {s d t : Nat} {x : α} {rest : List (Act α β)} (hp : σ.prog s = .send (some d) t x :: rest) :
    ∃ S', Inv L buf ⟨put σ.prog s rest, putStored σ.stored s d t (σ.stored s d t ++ [x]), σ.buf⟩ S' ∧
      (S.map Prod.snd).sum < (S'.map Prod.snd).sum := by
  obtain ⟨A, m, B, rfl, hA, rfl, rfl, rfl, rfl, rfl⟩ := head_send (by rw [← hI.prog]; exact hp)
  have hne : m.src ≠ m.dst := hL m (by rw [← hI.msgs]; simp)
  have hord := hI.order
  rw [List.pairwise_append, List.pairwise_cons] at hord
  have hB : ∀ y ∈ B, y.1.src = m.src → y.1.dst = m.dst → y.2 ≠ 1 := fun y hy e _ h1 => by
    have : 1 ≤ (m, 0).2 := (hord.2.1.1 y hy).1 e.symm (by omega)
    simp at this
  refine ⟨A ++ (m, 1) :: B, inv_change hI (by omega) (by omega) (fun _ y hy e => rem_nil_src (hA y hy) e) (by omega) ?_ ?_ ?_, ?_⟩
  · intro r
    simp only [put]
    split_ifs with h
    · subst h
      rw [List.flatMap_append, List.flatMap_cons, flatMap_nil hA]
      simp [rem, hne.symm]
    · rw [hI.prog, List.flatMap_append, List.flatMap_append, List.flatMap_cons, List.flatMap_cons]
      congr 2
      simp [rem, Ne.symm h]
  · intro s' d' t'
    simp only [putStored]
    split_ifs with h
    · obtain ⟨rfl, rfl, rfl⟩ := h
      rw [hI.stored, List.flatMap_append, List.flatMap_append, List.flatMap_cons, List.flatMap_cons, flight_nil hB]
      simp [flight]
    · rw [hI.stored, List.flatMap_append, List.flatMap_append, List.flatMap_cons, List.flatMap_cons]
      congr 2
      unfold flight
      rw [if_neg (by simp), if_neg]
      rintro ⟨-, h1, h2, h3⟩
      exact h ⟨h1.symm, h2.symm, h3.symm⟩
  · intro r b
    rw [hI.bufs, List.foldl_append, List.foldl_append, List.foldl_cons, List.foldl_cons]
    congr 1
  · simp

theorem inv_deliver {L : List (Msg α β)} {buf : Nat → β → α} {σ : State α β} {S : List (Msg α β × Nat)}
    (hI : Inv L buf σ S) {s d t : Nat} {b : β} {x : α} {xs : List α} {rest : List (Act α β)}
    (hp : σ.prog d = .recv (some s) t b :: rest) (hst : σ.stored s d t = x :: xs) :
    ∃ S', Inv L buf ⟨put σ.prog d rest, putStored σ.stored s d t xs, putBuf σ.buf d b x⟩ S' ∧
      (S.map Prod.snd).sum < (S'.map Prod.snd).sum := by
  obtain ⟨A, m, k, B, rfl, hk, -, hA, rfl, rfl, rfl, rfl, rfl⟩ := head_recv (by rw [← hI.prog]; exact hp)
  have hord := hI.order
  rw [List.pairwise_append, List.pairwise_cons] at hord
  have hA2 : ∀ y ∈ A, y.1.dst = m.dst → y.2 = 2 := fun y hy e => rem_nil_dst (hA y hy) (hI.le y (List.mem_append_left _ hy)) e
  have hAf : A.flatMap (flight m.src m.dst m.tag) = [] := flight_nil fun y hy _ e => by rw [hA2 y hy e]; decide
  have hst' := hst
  rw [hI.stored, List.flatMap_append, hAf, List.nil_append, List.flatMap_cons] at hst'
  have hk1 : k = 1 := by
    by_contra hne
    have hk0 : k = 0 := by omega
    subst hk0
    rw [flight_nil (S := B)] at hst'
    · simp [flight] at hst'
    · intro y hy e _ h1
      have : 1 ≤ (m, 0).2 := (hord.2.1.1 y hy).1 e.symm (by omega)
      simp at this
  subst hk1
  simp only [flight, true_and, and_self, if_true, List.cons_append, List.nil_append, List.cons.injEq] at hst'
  obtain ⟨rfl, hxs⟩ := hst'
  refine ⟨A ++ (m, 2) :: B, inv_change hI (by omega) (by omega) (fun _ y hy e => ?_) (fun _ => hA2) ?_ ?_ ?_, ?_⟩
  · exact (hord.2.2 y hy (m, 1) List.mem_cons_self).1 e (by simp)
  · intro r
    simp only [put]
    split_ifs with h
    · subst h
      rw [List.flatMap_append, List.flatMap_cons, flatMap_nil hA]
      simp [rem]
    · rw [hI.prog, List.flatMap_append, List.flatMap_append, List.flatMap_cons, List.flatMap_cons]
      congr 2
      simp [rem, Ne.symm h]
  · intro s' d' t'
    simp only [putStored]
    split_ifs with h
    · obtain ⟨rfl, rfl, rfl⟩ := h
      rw [List.flatMap_append, List.flatMap_cons, hAf, ← hxs]
      simp [flight]
    · rw [hI.stored, List.flatMap_append, List.flatMap_append, List.flatMap_cons, List.flatMap_cons]
      congr 2
      unfold flight
      rw [if_neg, if_neg (by simp)]
      rintro ⟨-, h1, h2, h3⟩
      exact h ⟨h1.symm, h2.symm, h3.symm⟩
  · intro r b'
    simp only [putBuf]
    rw [List.foldl_append, List.foldl_cons]
    split_ifs with h
    · obtain ⟨rfl, rfl⟩ := h
      rw [foldl_upd_done]
      · simp [upd]
      · intro y hy e h2
        have : (m, 1).2 = 2 := (hord.2.1.1 y hy).2 e.symm h2
        simp at this
    · rw [hI.bufs, List.foldl_append, List.foldl_cons]
      congr 1
      unfold upd
      rw [if_neg (by simp), if_neg]
      rintro ⟨-, h1, h2⟩
      exact h ⟨h1.symm, h2.symm⟩
  · simp

theorem inv_handover {L : List (Msg α β)} {buf : Nat → β → α} {σ : State α β} {S : List (Msg α β × Nat)} (hL : ∀ m ∈ L, m.src ≠ m.dst)
    (hI : Inv L buf σ S) {s d t : Nat} {b : β} {x : α} {rs rd : List (Act α β)} (hsd : s ≠ d)
    (hps : σ.prog s = .send (some d) t x :: rs) (hpd : σ.prog d = .recv (some s) t b :: rd) (hst : σ.stored s d t = []) :
    ∃ S', Inv L buf ⟨put (put σ.prog s rs) d rd, σ.stored, putBuf σ.buf d b x⟩ S' ∧
      (S.map Prod.snd).sum < (S'.map Prod.snd).sum := by
  obtain ⟨A, m, B, rfl, hA, rfl, rfl, rfl, rfl, rfl⟩ := head_send (by rw [← hI.prog]; exact hps)
  obtain ⟨A', m', k, B', e, hk, -, hA', h4, h5, h6, rfl, rfl⟩ := head_recv (by rw [← hI.prog]; exact hpd)
  have hk0 : k = 0 := by
    by_contra hne
    have hk1 : k = 1 := by omega
    subst hk1
    rw [hI.stored, e, List.flatMap_append, List.flatMap_cons] at hst
    simp [flight, h4, h5, h6] at hst
  subst hk0
  have hu := split_unique (P := fun y => rem m.src y = []) (Q := fun y => rem m.dst y = []) e hA (by simp [rem, h4]) hA' (by simp [rem, hsd])
  obtain ⟨rfl, hm, rfl⟩ := hu
  obtain rfl : m = m' := congrArg Prod.fst hm
  have hord := hI.order
  rw [List.pairwise_append, List.pairwise_cons] at hord
  have hA2 : ∀ y ∈ A, y.1.dst = m.dst → y.2 = 2 := fun y hy e => rem_nil_dst (hA' y hy) (hI.le y (List.mem_append_left _ hy)) e
  refine ⟨A ++ (m, 2) :: B, inv_change hI (by omega) (by omega) (fun _ y hy e => rem_nil_src (hA y hy) e) (fun _ => hA2) ?_ ?_ ?_, ?_⟩
  · intro r
    simp only [put]
    split_ifs with h h'
    · subst h
      rw [List.flatMap_append, List.flatMap_cons, flatMap_nil hA']
      simp [rem]
    · subst h'
      rw [List.flatMap_append, List.flatMap_cons, flatMap_nil hA]
      simp [rem]
    · rw [hI.prog, List.flatMap_append, List.flatMap_append, List.flatMap_cons, List.flatMap_cons]
      congr 2
      simp [rem, Ne.symm h, Ne.symm h']
  · intro s' d' t'
    rw [hI.stored, List.flatMap_append, List.flatMap_append, List.flatMap_cons, List.flatMap_cons]
    congr 2
  · intro r b'
    simp only [putBuf]
    rw [List.foldl_append, List.foldl_cons]
    split_ifs with h
    · obtain ⟨rfl, rfl⟩ := h
      rw [foldl_upd_done]
      · simp [upd]
      · intro y hy e h2
        have : (m, 0).2 = 2 := (hord.2.1.1 y hy).2 e.symm h2
        simp at this
    · rw [hI.bufs, List.foldl_append, List.foldl_cons]
      congr 1
      unfold upd
      rw [if_neg (by simp), if_neg]
      rintro ⟨-, h1, h2⟩
      exact h ⟨h1.symm, h2.symm⟩
  · simp

theorem inv_step {L : List (Msg α β)} {buf : Nat → β → α} {σ τ : State α β} {S : List (Msg α β × Nat)} (hL : ∀ m ∈ L, m.src ≠ m.dst)
    (hI : Inv L buf σ S) (h : Step σ τ) : ∃ S', Inv L buf τ S' ∧ (S.map Prod.snd).sum < (S'.map Prod.snd).sum := by
  cases h with
  | progress _ h =>
    cases h with
    | deliver s d t b x xs rest h1 h2 => exact inv_deliver hI h1 h2
    | handover s d t b x rs rd h1 h2 h3 h4 => exact inv_handover hL hI h1 h2 h3 h4
  | store s d t x rest h1 => exact inv_store hL hI h1

theorem inv_reaches {L : List (Msg α β)} {buf : Nat → β → α} {σ τ : State α β} {S : List (Msg α β × Nat)} (hL : ∀ m ∈ L, m.src ≠ m.dst)
    (hI : Inv L buf σ S) (h : Reaches σ τ) : ∃ S', Inv L buf τ S' := by
  induction h with
  | refl => exact ⟨S, hI⟩
  | tail _ _ _ h ih =>
    obtain ⟨S', h'⟩ := ih
    obtain ⟨S'', h'', -⟩ := inv_step hL h' h
    exact ⟨S'', h''⟩

/-- the first message that has not been received -/
theorem first_open {S : List (Msg α β × Nat)} (hle : ∀ x ∈ S, x.2 ≤ 2) : (∀ x ∈ S, x.2 = 2) ∨
    ∃ A m k B, S = A ++ (m, k) :: B ∧ k < 2 ∧ ∀ x ∈ A, x.2 = 2 := by
  induction S with
  | nil => exact Or.inl (by simp)
  | cons y S ih =>
    by_cases hy : y.2 = 2
    · rcases ih fun x hx => hle x (List.mem_cons_of_mem _ hx) with h | ⟨A, m, k, B, rfl, h1, h2⟩
      · refine Or.inl fun x hx => ?_
        rcases List.mem_cons.1 hx with rfl | hx
        · exact hy
        · exact h x hx
      · refine Or.inr ⟨y :: A, m, k, B, rfl, h1, fun x hx => ?_⟩
        rcases List.mem_cons.1 hx with rfl | hx
        · exact hy
        · exact h2 x hx
    · have := hle y List.mem_cons_self
      exact Or.inr ⟨[], y.1, y.2, S, rfl, by omega, by simp⟩

theorem inv_progress {L : List (Msg α β)} {buf : Nat → β → α} {σ : State α β} {S : List (Msg α β × Nat)} (hL : ∀ m ∈ L, m.src ≠ m.dst)
    (hI : Inv L buf σ S) : (∀ x ∈ S, x.2 = 2) ∨ ∃ τ, Progress σ τ := by
  rcases first_open hI.le with h | ⟨A, m, k, B, rfl, hk, hA⟩
  · exact Or.inl h
  · right
    have hne : m.src ≠ m.dst := hL m (by rw [← hI.msgs]; simp)
    have hord := hI.order
    rw [List.pairwise_append, List.pairwise_cons] at hord
    have hAr : ∀ r, A.flatMap (rem r) = [] := fun r => flatMap_nil fun x hx => by simp [rem, hA x hx]
    have hAf : A.flatMap (flight m.src m.dst m.tag) = [] := flight_nil fun y hy _ _ => by rw [hA y hy]; decide
    have hk' : k = 0 ∨ k = 1 := by omega
    rcases hk' with rfl | rfl
    · refine ⟨_, .handover σ m.src m.dst m.tag m.buf m.data (B.flatMap (rem m.src)) (B.flatMap (rem m.dst)) hne ?_ ?_ ?_⟩
      · rw [hI.prog, List.flatMap_append, List.flatMap_cons, hAr]; simp [rem]
      · rw [hI.prog, List.flatMap_append, List.flatMap_cons, hAr]; simp [rem, hne]
      · rw [hI.stored, List.flatMap_append, List.flatMap_cons, hAf, flight_nil (S := B)]
        · simp [flight]
        · intro y hy e _ h1
          have : 1 ≤ (m, 0).2 := (hord.2.1.1 y hy).1 e.symm (by omega)
          simp at this
    · refine ⟨_, .deliver σ m.src m.dst m.tag m.buf m.data (B.flatMap (flight m.src m.dst m.tag)) (B.flatMap (rem m.dst)) ?_ ?_⟩
      · rw [hI.prog, List.flatMap_append, List.flatMap_cons, hAr]; simp [rem]
      · rw [hI.stored, List.flatMap_append, List.flatMap_cons, hAf]; simp [flight]

/-- projections of one sequence of messages never get stuck -/
theorem project_neverStuck {L : List (Msg α β)} (hL : ∀ m ∈ L, m.src ≠ m.dst) (buf : Nat → β → α) : NeverStuck (start (project L) buf) := by
  intro τ h
  obtain ⟨S, hI⟩ := inv_reaches hL (inv_start L buf) h
  rcases inv_progress hL hI with h2 | h2
  · refine Or.inl fun r => ?_
    rw [hI.prog]
    exact flatMap_nil fun x hx => by simp [rem, h2 x hx]
  · exact Or.inr h2

/-- all executions end with the same buffers -/
theorem project_finished {L : List (Msg α β)} (hL : ∀ m ∈ L, m.src ≠ m.dst) (buf : Nat → β → α) {τ : State α β}
    (h : Reaches (start (project L) buf) τ) (hf : Finished τ) : τ.buf = deliverAll buf L := by
  obtain ⟨S, hI⟩ := inv_reaches hL (inv_start L buf) h
  have h2 : ∀ x ∈ S, x.2 = 2 := by
    rcases inv_progress hL hI with h2 | ⟨υ, h2⟩
    · exact h2
    · exfalso
      cases h2 with
      | deliver s d t b x xs rest h1 h2 => rw [hf d] at h1; cases h1
      | handover s d t b x rs rd h1 h2 h3 h4 => rw [hf d] at h3; cases h3
  have e : S = L.map fun m => (m, 2) := by
    rw [← hI.msgs, List.map_map]
    conv_lhs => rw [← List.map_id S]
    refine List.map_congr_left fun x hx => ?_
    simp only [id, Function.comp, ← h2 x hx]
  funext r b
  rw [hI.bufs, e, List.foldl_map]
  unfold deliverAll upd
  simp

/-- no execution has more steps than two for each message -/
theorem project_bounded {L : List (Msg α β)} (hL : ∀ m ∈ L, m.src ≠ m.dst) (buf : Nat → β → α) (n : Nat) (f : Nat → State α β)
    (h0 : f 0 = start (project L) buf) (hs : ∀ i < n, Step (f i) (f (i + 1))) : n ≤ 2 * L.length := by
  have key : ∀ i ≤ n, ∃ S, Inv L buf (f i) S ∧ i ≤ (S.map Prod.snd).sum := by
    intro i
    induction i with
    | zero => exact fun _ => ⟨_, by rw [h0]; exact inv_start L buf, Nat.zero_le _⟩
    | succ i ih =>
      intro hi
      obtain ⟨S, hI, hS⟩ := ih (by omega)
      obtain ⟨S', hI', hS'⟩ := inv_step hL hI (hs i (by omega))
      exact ⟨S', hI', by omega⟩
  obtain ⟨S, hI, hS⟩ := key n (Nat.le_refl n)
  have hb : ∀ S : List (Msg α β × Nat), (∀ x ∈ S, x.2 ≤ 2) → (S.map Prod.snd).sum ≤ 2 * S.length := by
    intro S
    induction S with
    | nil => simp
    | cons x S ih =>
      intro h
      have h1 := h x List.mem_cons_self
      have h2 := ih fun y hy => h y (List.mem_cons_of_mem _ hy)
      simp only [List.map_cons, List.sum_cons, List.length_cons]
      omega
  have hlen : S.length = L.length := by rw [← hI.msgs, List.length_map]
  have := hb S hI.le
  omega

end WxVerif.Messages
