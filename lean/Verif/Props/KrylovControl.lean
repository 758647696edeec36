import Verif.Model.KrylovControl
import Mathlib.Tactic.Linarith
import Mathlib.Tactic.NormNum
import Mathlib.Tactic.Ring

/-!
# Step control of the Krylov exponential solvers (C31)
-/

namespace WxVerif.Props.KrylovControl

open WxVerif.KrylovControl

/-- admissible arguments: positive, strictly ascending output times and ordered Krylov bounds -/
structure Ready (p : Par) : Prop where
  ne : p.tauOut ≠ []
  pos : ∀ t ∈ p.tauOut, 0 < t
  asc : p.tauOut.Pairwise (· < ·)
  min1 : 1 ≤ p.mmin
  minmax : p.mmin ≤ p.mmax

theorem last_eq (p : Par) (h : Ready p) : p.last = p.tauOut[p.tauOut.length - 1]'(by
    have := List.length_pos_iff.2 h.ne; omega) := by
  unfold Par.last
  rw [List.getLastD_eq_getLast?, List.getLast?_eq_some_getLast h.ne, Option.getD_some, List.getLast_eq_getElem]

theorem last_pos (p : Par) (h : Ready p) : 0 < p.last := by
  rw [last_eq p h]; exact h.pos _ (List.getElem_mem _)

theorem tauEnd_eq (p : Par) (h : Ready p) : p.tauEnd = p.last := abs_of_pos (last_pos p h)

theorem sgn_eq (p : Par) (h : Ready p) : p.sgn = 1 := by
  unfold Par.sgn; rw [if_pos (last_pos p h)]

theorem le_last (p : Par) (h : Ready p) (k : Nat) (hk : k < p.tauOut.length) : p.tauOut[k] ≤ p.last := by
  rw [last_eq p h]
  rcases Nat.lt_or_ge k (p.tauOut.length - 1) with h1 | h1
  · exact le_of_lt (List.pairwise_iff_getElem.1 h.asc _ _ _ _ h1)
  · have : k = p.tauOut.length - 1 := by omega
    subst this; exact le_rfl

theorem filter_prefix (c : ℝ) (hc : 0 < c) (L : List ℝ) (hp : ∀ t ∈ L, 0 < t) (hs : L.Pairwise (· < ·)) :
    ∀ k (hk : k < L.length), (k < (L.filter fun t => decide (|t| < |c|)).length → L[k] < c) ∧
      (k = (L.filter fun t => decide (|t| < |c|)).length → c ≤ L[k]) := by
  induction L with
  | nil => intro k hk; simp at hk
  | cons a L ih =>
    have hp' : ∀ t ∈ L, 0 < t := fun t ht => hp t (List.mem_cons_of_mem _ ht)
    rw [List.pairwise_cons] at hs
    have ha : 0 < a := hp a List.mem_cons_self
    have hcond : (|a| < |c|) ↔ a < c := by rw [abs_of_pos ha, abs_of_pos hc]
    by_cases hac : a < c
    · intro k hk
      rw [List.filter_cons_of_pos (by simpa using hcond.2 hac), List.length_cons]
      cases k with
      | zero => exact ⟨fun _ => hac, fun h => by omega⟩
      | succ k =>
        have := ih hp' hs.2 k (by simpa using hk)
        exact ⟨fun h => by simpa using this.1 (by omega), fun h => by simpa using this.2 (by omega)⟩
    · have hnil : L.filter (fun t => decide (|t| < |c|)) = [] := by
        rw [List.filter_eq_nil_iff]
        intro t ht
        have h1 := hs.1 t ht
        simp only [decide_eq_true_eq]
        rw [abs_of_pos (hp' t ht), abs_of_pos hc]
        push Not at hac ⊢
        linarith
      intro k hk
      rw [List.filter_cons_of_neg (by simpa using fun h => hac (hcond.1 h)), hnil]
      constructor
      · intro h; simp at h
      · intro h
        have : k = 0 := by simpa using h
        subst this
        simpa using hac

/-- the outputs passed by a step are the next ones, in order -/
theorem blown_spec (p : Par) (h : Ready p) (l : Nat) (hl : l < p.tauOut.length) (c : ℝ) (hc : 0 < c) (hcl : c ≤ p.last) :
    l + blown p l c < p.tauOut.length ∧
    (∀ k (hk : k < p.tauOut.length), l ≤ k → k < l + blown p l c → p.tauOut[k] < c) ∧
    (∀ (hk : l + blown p l c < p.tauOut.length), c ≤ p.tauOut[l + blown p l c]) := by
  have hf := filter_prefix c hc (p.tauOut.drop l) (fun t ht => h.pos t (List.mem_of_mem_drop ht))
    (h.asc.sublist (List.drop_sublist _ _))
  have h1 : ∀ k (hk : k < p.tauOut.length), l ≤ k → k < l + blown p l c → p.tauOut[k] < c := by
    intro k hk hlk hkb
    have := (hf (k - l) (by simp; omega)).1 (by unfold blown at hkb; omega)
    rw [List.getElem_drop] at this
    simpa [show l + (k - l) = k by omega] using this
  have h2 : l + blown p l c < p.tauOut.length := by
    by_contra hge
    push Not at hge
    have hlen := List.length_pos_iff.2 h.ne
    have h3 := h1 (p.tauOut.length - 1) (by omega) (by omega) (by omega)
    rw [← last_eq p h] at h3
    linarith
  refine ⟨h2, h1, ?_⟩
  intro hk
  have := (hf (blown p l c) (by simp; omega)).2 rfl
  rw [List.getElem_drop] at this
  exact this

/-- invariant of the loop -/
structure Inv (p : Par) (s : St) : Prop where
  t0 : 0 ≤ s.tauNow
  t1 : s.tauNow ≤ p.tauEnd
  tau : s.tauNow < p.tauEnd → 0 < s.tau ∧ s.tauNow + s.tau ≤ p.tauEnd
  m : p.mmin ≤ s.m ∧ s.m ≤ p.mmax
  j : 0 ≤ s.j ∧ s.j ≤ p.mmax
  l : s.l < p.tauOut.length
  w : s.w.length = p.tauOut.length
  stored : ∀ k (hk : k < p.tauOut.length), k < s.l → s.w[k]? = some (some p.tauOut[k])
  cur : s.w[s.l]? = some (some s.tauNow)
  past : ∀ k (hk : k < p.tauOut.length), k < s.l → p.tauOut[k] < s.tauNow
  next : s.tauNow ≤ p.tauOut[s.l]

theorem phantoms_length (p : Par) (t : ℝ) (l n : Nat) (w : List (Option ℝ)) : (phantoms p t l n w).length = w.length := by
  induction n with
  | zero => rfl
  | succ n ih => simp [phantoms, ih]

theorem phantoms_get (p : Par) (h : Ready p) (t : ℝ) (l n : Nat) (w : List (Option ℝ)) (hn : l + n ≤ p.tauOut.length)
    (hw : w.length = p.tauOut.length) (k : Nat) (hk : k < p.tauOut.length) :
    (phantoms p t l n w)[k]? = if l ≤ k ∧ k < l + n then some (some p.tauOut[k]) else w[k]? := by
  induction n with
  | zero => rw [if_neg (by omega)]; rfl
  | succ n ih =>
    rw [phantoms]
    rw [List.getElem?_set, phantoms_length, ih (by omega)]
    by_cases hkn : l + n = k
    · subst hkn
      rw [if_pos rfl, if_pos (by omega), if_pos (by omega), sgn_eq p h, List.getD_eq_getElem?_getD, List.getElem?_eq_getElem hk,
        Option.getD_some]
      congr 2; ring
    · rw [if_neg hkn]
      by_cases h2 : l ≤ k ∧ k < l + n
      · rw [if_pos h2, if_pos (by omega)]
      · rw [if_neg h2, if_neg (by omega)]

theorem store_spec (p : Par) (h : Ready p) (s : St) (hi : Inv p s) (hr : s.tauNow < p.tauEnd) :
    ∃ w l, store p s = some (w, l) ∧ w.length = p.tauOut.length ∧ l < p.tauOut.length ∧ s.l ≤ l ∧
      (∀ k (hk : k < p.tauOut.length), k < l → w[k]? = some (some p.tauOut[k])) ∧
      w[l]? = some (some (s.tauNow + s.tau)) ∧
      (∀ k (hk : k < p.tauOut.length), k < l → p.tauOut[k] < s.tauNow + s.tau) ∧
      (∀ hl : l < p.tauOut.length, s.tauNow + s.tau ≤ p.tauOut[l]) := by
  obtain ⟨ht, hte⟩ := hi.tau hr
  have hc : 0 < s.tauNow + s.tau := by linarith [hi.t0]
  obtain ⟨b1, b2, b3⟩ := blown_spec p h s.l hi.l (s.tauNow + s.tau) hc (by rw [← tauEnd_eq p h]; exact hte)
  unfold store
  rw [if_pos (by rw [hi.w]; exact b1)]
  refine ⟨_, _, rfl, ?_, b1, by omega, ?_, ?_, ?_, b3⟩
  · split_ifs <;> simp [phantoms_length, hi.w]
  · intro k hk hkl
    rw [List.getElem?_set_ne (by omega)]
    split_ifs with hn
    · rw [phantoms_get p h _ _ _ _ (by omega) (by simp [hi.w]) k hk]
      split_ifs with h2
      · rfl
      · rw [List.getElem?_set_ne (by omega)]
        exact hi.stored k hk (by omega)
    · exact hi.stored k hk (by omega)
  · rw [List.getElem?_set_self, sgn_eq p h, one_mul]
    split_ifs <;> simp [phantoms_length, hi.w, b1]
  · intro k hk hkl
    rcases Nat.lt_or_ge k s.l with h1 | h1
    · have := hi.past k hk h1; linarith
    · exact b2 k hk h1 hkl

theorem grow_spec (j m : ℤ) (b : Option ℤ) :
    ((grow j m b).1 = max j m ∨ (j < (grow j m b).1 ∧ (grow j m b).1 ≤ m)) ∧ j ≤ (grow j m b).1 := by
  unfold grow
  split
  · split_ifs with hb
    · exact ⟨Or.inr hb, by simp only; omega⟩
    · exact ⟨Or.inl rfl, le_max_left _ _⟩
  · exact ⟨Or.inl rfl, le_max_left _ _⟩

theorem mOpt_spec (p : Par) (h : Ready p) (m mLaw : ℤ) : p.mmin ≤ mOpt p m mLaw ∧ mOpt p m mLaw ≤ p.mmax := by
  unfold mOpt
  exact ⟨le_max_left _ _, max_le h.minmax (min_le_left _ _)⟩

theorem propose_spec (p : Par) (h : Ready p) (s : St) (hi : Inv p s) (hr : s.tauNow < p.tauEnd) (j : ℤ)
    (t : Trial) :
    (p.mmin ≤ (propose p s j t).2 ∧ (propose p s j t).2 ≤ p.mmax) ∧
    (t.omega ≤ p.delta → (propose p s j t).1 ≤ p.tauEnd - (s.tauNow + s.tau) ∧
      (s.tauNow + s.tau < p.tauEnd → 0 < (propose p s j t).1)) ∧
    (¬ t.omega ≤ p.delta → (propose p s j t).1 ≤ p.tauEnd - s.tauNow ∧ 0 < (propose p s j t).1) := by
  obtain ⟨ht, hte⟩ := hi.tau hr
  have hm := mOpt_spec p h s.m t.mLaw
  have hmm := hi.m
  have h5 : 0 < s.tau / 5 := by linarith
  unfold propose
  simp only
  by_cases ho : t.omega ≤ p.delta
  · have hng : ¬ t.omega > p.delta := not_lt.2 ho
    simp only [hng, if_false]
    by_cases hj : j = p.mmax
    · simp only [hj, if_true]
      refine ⟨hmm, fun _ => ⟨min_le_left _ _, fun hlt => lt_min (by linarith) (lt_max_of_lt_left h5)⟩, fun hn => absurd ho hn⟩
    · simp only [hj, if_false]
      refine ⟨?_, fun _ => ⟨min_le_left _ _, fun hlt => lt_min (by linarith) ht⟩, fun hn => absurd ho hn⟩
      split_ifs
      · exact hmm
      · exact hm
  · have hg : t.omega > p.delta := not_le.1 ho
    simp only [hg, if_true]
    by_cases hj : j = p.mmax
    · simp only [hj, if_true]
      exact ⟨⟨h.minmax, le_rfl⟩, fun hn => absurd hn ho,
        fun _ => ⟨min_le_left _ _, lt_min (by linarith) (lt_max_of_lt_left h5)⟩⟩
    · simp only [hj, if_false]
      refine ⟨?_, fun hn => absurd hn ho, fun _ => ⟨min_le_left _ _, lt_min (by linarith) ht⟩⟩
      split_ifs
      · exact hmm
      · exact hm

theorem pass_spec (p : Par) (h : Ready p) (s : St) (hi : Inv p s) (hr : s.tauNow < p.tauEnd) (t : Trial) :
    ∃ s', pass p s t = some s' ∧ Inv p s' ∧
      ((1 ≤ (grow s.j s.m t.breakdown).1 ∧ (grow s.j s.m t.breakdown).1 ≤ p.mmax) ∧
       (s'.step + s'.reject + s'.ireject = s.step + s.reject + s.ireject + 1) ∧
       ((s'.step = s.step + 1 ∧ s'.tauNow = s.tauNow + s.tau ∧ s'.j = 0) ∨
        (s'.step = s.step ∧ s'.tauNow = s.tauNow ∧ s'.w = s.w ∧ s'.j = (grow s.j s.m t.breakdown).1))) := by
  obtain ⟨ht, hte⟩ := hi.tau hr
  obtain ⟨g1, g2⟩ := grow_spec s.j s.m t.breakdown
  have hg : 1 ≤ (grow s.j s.m t.breakdown).1 ∧ (grow s.j s.m t.breakdown).1 ≤ p.mmax := by
    have := hi.m; have := hi.j; have := h.min1
    rcases g1 with g | g
    · rw [g]; exact ⟨le_trans (by omega) (le_max_right _ _), max_le (by omega) (by omega)⟩
    · omega
  have hps := propose_spec p h s hi hr (grow s.j s.m t.breakdown).1 t
  obtain ⟨w, l, hst, w1, w2, w3, w4, w5, w6, w7⟩ := store_spec p h s hi hr
  unfold pass
  simp only
  by_cases ha : (grow s.j s.m t.breakdown).2 = true ∨ t.omega ≤ p.delta
  · rw [if_pos ha, hst]
    refine ⟨_, rfl, ?_, hg, by simp only; omega, Or.inl ⟨rfl, rfl, rfl⟩⟩
    refine ⟨by simp only; linarith [hi.t0], hte, ?_, ?_, by simp only; have := h.min1; have := h.minmax; omega,
      w2, w1, w4, w5, w6, w7 w2⟩
    · simp only
      intro hlt
      by_cases hh : (grow s.j s.m t.breakdown).2 = true
      · simp only [hh, if_true]
        refine ⟨lt_min (by linarith) ht, ?_⟩
        have := min_le_left (p.tauEnd - (s.tauNow + s.tau)) s.tau
        linarith
      · simp only [hh, Bool.false_eq_true, if_false]
        have ho : t.omega ≤ p.delta := ha.resolve_left hh
        have := hps.2.1 ho
        exact ⟨this.2 hlt, by linarith [this.1]⟩
    · simp only
      by_cases hh : (grow s.j s.m t.breakdown).2 = true
      · simp only [hh, if_true]; exact hi.m
      · simp only [hh, Bool.false_eq_true, if_false]; exact hps.1
  · rw [if_neg ha]
    push Not at ha
    have hh : ¬ (grow s.j s.m t.breakdown).2 = true := ha.1
    refine ⟨_, rfl, ?_, hg, by simp only; omega, Or.inr ⟨rfl, rfl, rfl, rfl⟩⟩
    have hp2 := hps.2.2 (not_le.2 ha.2)
    simp only [hh, Bool.false_eq_true, if_false]
    exact ⟨hi.t0, hi.t1, fun _ => ⟨hp2.2, by simp only; linarith [hp2.1]⟩, hps.1, ⟨by simp only; omega, hg.2⟩, hi.l, hi.w,
      hi.stored, hi.cur, hi.past, hi.next⟩

theorem init_inv (p : Par) (h : Ready p) : Inv p (init p) := by
  have hl := List.length_pos_iff.2 h.ne
  have hp := last_pos p h
  have he := tauEnd_eq p h
  refine ⟨le_rfl, by simp only [init]; linarith, ?_, ?_, ?_, hl, by simp [init], ?_, ?_, ?_, ?_⟩
  · intro _; simp only [init]; constructor <;> linarith
  · simp only [init]
    have := h.minmax
    exact ⟨le_max_left _ _, max_le this (min_le_right _ _)⟩
  · simp only [init]; have := h.min1; have := h.minmax; omega
  · intro k _ hk; simp [init] at hk
  · simp [init, List.getElem?_set, hl]
  · intro k _ hk; simp [init] at hk
  · simp only [init]; exact le_of_lt (h.pos _ (List.getElem_mem _))

theorem after_inv (p : Par) (h : Ready p) (trials : Nat → Trial) (n : Nat) :
    ∃ s, after p trials n = some s ∧ Inv p s ∧ (s.tauNow < p.tauEnd → s.step + s.reject + s.ireject = n) := by
  induction n with
  | zero => exact ⟨_, rfl, init_inv p h, fun _ => rfl⟩
  | succ n ih =>
    obtain ⟨s, hs, hi, hn⟩ := ih
    rw [after, hs]
    simp only [Option.bind_some]
    split_ifs with hr
    · obtain ⟨s', h1, h2, _, h4, _⟩ := pass_spec p h s hi hr (trials n)
      exact ⟨s', h1, h2, fun _ => by rw [h4, hn hr]⟩
    · exact ⟨s, rfl, hi, fun hlt => absurd hlt hr⟩

/-- **C31**: for every sequence of answers of the Krylov process, at every pass: no array index is out of range (the run does
    not fail), the Krylov size stays within its bounds, the internal time stays between 0 and the end, the next step does
    not pass the end, and exactly the output times before the internal time have been stored, in order; the row in use
    holds the solution at the internal time. -/
theorem C31_control (p : Par) (h : Ready p) (trials : Nat → Trial) (n : Nat) :
    ∃ s, after p trials n = some s ∧
      (p.mmin ≤ s.m ∧ s.m ≤ p.mmax) ∧ (0 ≤ s.tauNow ∧ s.tauNow ≤ p.last) ∧
      (s.tauNow < p.last → 0 < s.tau ∧ s.tauNow + s.tau ≤ p.last) ∧
      (∀ k (hk : k < p.tauOut.length), k < s.l → p.tauOut[k] < s.tauNow ∧ s.w[k]? = some (some p.tauOut[k])) ∧
      (s.l < p.tauOut.length ∧ ∀ k (hk : k < p.tauOut.length), s.l ≤ k → s.tauNow ≤ p.tauOut[k]) ∧
      s.w[s.l]? = some (some s.tauNow) := by
  obtain ⟨s, hs, hi, _⟩ := after_inv p h trials n
  have he := tauEnd_eq p h
  have ht1 := hi.t1
  have htau := hi.tau
  rw [he] at ht1 htau
  refine ⟨s, hs, hi.m, ⟨hi.t0, ht1⟩, htau, fun k hk hkl => ⟨hi.past k hk hkl, hi.stored k hk hkl⟩, ⟨hi.l, ?_⟩, hi.cur⟩
  intro k hk hlk
  refine le_trans hi.next ?_
  rcases Nat.lt_or_ge s.l k with h1 | h1
  · exact le_of_lt (List.pairwise_iff_getElem.1 h.asc _ _ _ _ h1)
  · have : s.l = k := by omega
    subst this; exact le_rfl

/-- **C31**: when the loop has ended, every requested output time is stored in its own row. -/
theorem C31_outputs (p : Par) (h : Ready p) (trials : Nat → Trial) (n : Nat) (s : St)
    (hs : after p trials n = some s) (hend : ¬ s.tauNow < p.tauEnd) :
    s.w = p.tauOut.map some := by
  obtain ⟨s', hs', hi, _⟩ := after_inv p h trials n
  rw [hs] at hs'
  obtain rfl := Option.some.inj hs'
  have ht : s.tauNow = p.last := by
    rw [← tauEnd_eq p h]; exact le_antisymm hi.t1 (not_lt.1 hend)
  have hlast : s.l = p.tauOut.length - 1 := by
    by_contra hne
    have hl := hi.l
    have h1 : p.tauOut[s.l] < p.last := by
      rw [last_eq p h]
      exact List.pairwise_iff_getElem.1 h.asc _ _ _ _ (by omega)
    have := hi.next
    linarith
  apply List.ext_getElem?
  intro k
  rw [List.getElem?_map]
  rcases Nat.lt_or_ge k p.tauOut.length with hk | hk
  · rw [List.getElem?_eq_getElem hk, Option.map_some]
    rcases Nat.lt_or_ge k s.l with h1 | h1
    · exact hi.stored k hk h1
    · have : k = s.l := by omega
      subst this
      rw [hi.cur, ht, last_eq p h]
      simp only [hlast]
  · rw [List.getElem?_eq_none (by rw [hi.w]; exact hk), List.getElem?_eq_none hk]
    rfl

/-- **C31**: every pass is either accepted and moves the internal time forward by the positive step, or rejected and leaves
    the time and the stored rows alone; the next pass builds a new Krylov space after an accepted pass and continues the
    present one after a rejected pass; accepted and rejected passes add up; the Krylov dimension used is between 1 and
    the allocated maximum. -/
theorem C31_pass (p : Par) (h : Ready p) (trials : Nat → Trial) (n : Nat) (s : St) (hs : after p trials n = some s)
    (hr : s.tauNow < p.tauEnd) :
    s.step + s.reject + s.ireject = n ∧
    (1 ≤ (grow s.j s.m (trials n).breakdown).1 ∧ (grow s.j s.m (trials n).breakdown).1 ≤ p.mmax) ∧
    ∃ s', after p trials (n + 1) = some s' ∧
      ((s'.step = s.step + 1 ∧ s'.tauNow = s.tauNow + s.tau ∧ 0 < s.tau ∧ s'.j = 0) ∨
       (s'.step = s.step ∧ s'.tauNow = s.tauNow ∧ s'.w = s.w ∧ s'.j = (grow s.j s.m (trials n).breakdown).1)) := by
  obtain ⟨s', hs', hi, hn⟩ := after_inv p h trials n
  rw [hs] at hs'
  obtain rfl := Option.some.inj hs'
  obtain ⟨s', h1, h2, h3, h4, h5⟩ := pass_spec p h s hi hr (trials n)
  refine ⟨hn hr, h3, s', ?_, ?_⟩
  · rw [after, hs]; simp only [Option.bind_some]; rw [if_pos hr, h1]
  · rcases h5 with ⟨a, b, c⟩ | h5
    · exact Or.inl ⟨a, b, (hi.tau hr).1, c⟩
    · exact Or.inr h5

/-- admissible arguments that are not trivial: three output times -/
noncomputable def demo : Par := { tauOut := [1 / 4, 1 / 2, 1], mInit := 10, mmin := 10, mmax := 128, delta := 7 / 5, keepM := false }

theorem demo_ready : Ready demo := by
  refine ⟨by simp [demo], ?_, ?_, by simp [demo], by simp [demo]⟩
  · intro t ht
    simp only [demo, List.mem_cons, List.not_mem_nil, or_false] at ht
    rcases ht with rfl | rfl | rfl <;> norm_num
  · simp only [demo, List.pairwise_cons, List.mem_cons, List.not_mem_nil, or_false, List.Pairwise.nil]
    norm_num

/-- negative output times -/
noncomputable def backward : Par := { demo with tauOut := [-(1 / 2), -1] }

/-- **C31** does not extend to negative times (which the signs in the code are meant to allow): for the times `-1/2, -1`
    and an accepted first pass, the loop ends and row 0 holds the solution at `+1/2`. -/
theorem C31_negative_times_fail (trials : Nat → Trial) (h0 : (trials 0).omega ≤ backward.delta) :
    ∃ s, after backward trials 1 = some s ∧ ¬ s.tauNow < backward.tauEnd ∧
      s.w = [some (1 / 2), some (-1)] ∧ s.w ≠ backward.tauOut.map some := by
  have hlast : backward.last = -1 := by simp [backward, Par.last, demo]
  have he : backward.tauEnd = 1 := by unfold Par.tauEnd; rw [hlast]; norm_num
  have hsg : backward.sgn = -1 := by unfold Par.sgn; rw [hlast]; norm_num
  have hb : blown backward 0 1 = 1 := by
    unfold blown
    simp only [backward, demo, List.drop_zero]
    rw [List.filter_cons_of_pos (by simp; norm_num), List.filter_cons_of_neg (by simp)]
    rfl
  have hst : store backward (init backward) = some ([some (1 / 2), some (-1)], 1) := by
    have e1 : (init backward).w = [some 0, none] := by simp [init, backward, demo]
    have e2 : (init backward).l = 0 := rfl
    have e3 : (init backward).tauNow = 0 := rfl
    have e4 : (init backward).tau = 1 := he
    have e5 : backward.tauOut = [-(1 / 2), -1] := rfl
    unfold store
    rw [e1, e2, e3, e4]
    simp only [zero_add, hb]
    simp only [phantoms, hsg, e5]
    norm_num
  have key : ∃ s, after backward trials 1 = some s ∧ s.tauNow = 1 ∧ s.w = [some (1 / 2), some (-1)] := by
    rw [after, after]
    simp only [Option.bind_some]
    have hlt : (init backward).tauNow < backward.tauEnd := by rw [he]; simp [init]
    rw [if_pos hlt]
    unfold pass
    simp only
    rw [if_pos (Or.inr h0), hst]
    have e3 : (init backward).tauNow = 0 := rfl
    have e4 : (init backward).tau = 1 := he
    refine ⟨_, rfl, ?_, rfl⟩
    simp only [e3, e4, zero_add]
  obtain ⟨s, h1, h2, h3⟩ := key
  refine ⟨s, h1, by rw [h2, he]; norm_num, h3, ?_⟩
  rw [h3]
  simp only [backward, demo, List.map_cons, List.map_nil]
  intro hh
  have := Option.some.inj (List.cons.inj hh).1
  norm_num at this

/-- the first three conclusions for the three output times of `demo`, whatever the error estimates -/
example (trials : Nat → Trial) (n : Nat) : ∃ s, after demo trials n = some s ∧ (10 ≤ s.m ∧ s.m ≤ 128) ∧ 0 ≤ s.tauNow ∧ s.tauNow ≤ 1 := by
  obtain ⟨s, h, h1, h2, -⟩ := C31_control demo demo_ready trials n
  exact ⟨s, h, h1, by simpa [demo, Par.last] using h2⟩

/-- the start of the run of `demo` meets the hypotheses of `C31_pass` -/
example (trials : Nat → Trial) : ∃ s, after demo trials 0 = some s ∧ s.tauNow < demo.tauEnd := by
  refine ⟨_, rfl, ?_⟩
  norm_num [demo, Par.tauEnd, Par.last, init]

end WxVerif.Props.KrylovControl
