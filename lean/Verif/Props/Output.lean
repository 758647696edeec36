import Verif.Model.Output
import Verif.Spec.Text
import Mathlib.Data.Nat.Digits.Lemmas
import Mathlib.Tactic.Linarith
import Mathlib.Tactic.Ring
import Mathlib.Tactic.NormNum
import Mathlib.Data.Rat.Floor

/-!
# Properties C17 – C19: file names, state files, durations
-/

namespace WxVerif.Props.Output

open WxVerif.Output WxVerif.Text

/-! ## C17 -/

/-- value of a digit character (helper) -/
def charVal (c : Char) : Nat := ((List.range 16).find? fun d => Nat.digitChar d == c).getD 0

theorem charVal_digitChar : ∀ d, d < 16 → charVal (Nat.digitChar d) = d := by decide +kernel

theorem digitsMsf_lt {b n : Nat} (hb : 1 < b) : ∀ d ∈ digitsMsf b n, d < b := by
  intro d hd
  unfold digitsMsf at hd
  split at hd
  · simp at hd; omega
  · exact Nat.digits_lt_base hb (List.mem_reverse.1 hd)

theorem ofDigits_digitsMsf (b n k : Nat) :
    Nat.ofDigits b (List.replicate k 0 ++ digitsMsf b n).reverse = n := by
  unfold digitsMsf
  split
  · rename_i h
    subst h
    rw [List.reverse_append, List.reverse_replicate, List.reverse_singleton]
    have : [0] ++ List.replicate k 0 = List.replicate (k + 1) 0 := by rw [List.replicate_succ]; rfl
    rw [this, Nat.ofDigits_replicate_zero]
  · rw [List.reverse_append, List.reverse_reverse, List.reverse_replicate, Nat.ofDigits_append,
      Nat.ofDigits_replicate_zero, Nat.ofDigits_digits]
    simp

theorem fmt_injective {b w m n : Nat} (hb : 1 < b) (hb' : b ≤ 16) (h : fmt b w m = fmt b w n) : m = n := by
  have key : ∀ n, (fmt b w n).map charVal = List.replicate (w - (digitsMsf b n).length) 0 ++ digitsMsf b n := by
    intro n
    unfold fmt
    rw [List.map_map]
    conv_rhs => rw [← List.map_id (List.replicate (w - (digitsMsf b n).length) 0 ++ digitsMsf b n)]
    apply List.map_congr_left
    intro d hd
    apply charVal_digitChar
    rcases List.mem_append.1 hd with h | h
    · rw [(List.mem_replicate.1 h).2]; omega
    · exact lt_of_lt_of_le (digitsMsf_lt hb d h) hb'
  have h2 := congrArg (List.map charVal) h
  rw [key, key] at h2
  have h3 := congrArg (fun l => Nat.ofDigits b l.reverse) h2
  simpa only [ofDigits_digitsMsf] using h3

theorem fmt_length {b w n : Nat} (hb : 1 < b) (hw : 1 ≤ w) (hn : n < b ^ w) : (fmt b w n).length = w := by
  have : (digitsMsf b n).length ≤ w := by
    unfold digitsMsf
    split
    · simpa using hw
    · rw [List.length_reverse]
      exact (Nat.digits_length_le_iff hb n).2 hn
  unfold fmt
  simp only [List.length_map, List.length_append, List.length_replicate]
  omega

theorem configHash_lt (h : Int) : configHash h < 16 ^ 12 := by
  unfold configHash
  have h1 := Int.emod_nonneg h (by norm_num : (2 : Int) ^ 48 ≠ 0)
  have h2 := Int.emod_lt_of_pos h (by norm_num : (0 : Int) < 2 ^ 48)
  have : (16 : Nat) ^ 12 = 2 ^ 48 := by norm_num
  omega

/-- **C17.** In one output directory, two state files have the same name only if they have the same step number and
the same 48-bit configuration hash, whatever the directory, the hashes and the step numbers (also those of more than 8
digits). -/
theorem C17_state_file_names (dir : List Char) (h h' : Int) (n n' : Nat)
    (heq : stateFileName dir h n = stateFileName dir h' n') :
    n = n' ∧ h % 2 ^ 48 = h' % 2 ^ 48 := by
  unfold stateFileName at heq
  simp only [List.append_assoc] at heq
  have h1 := List.append_cancel_left (List.append_cancel_left heq)
  have hl : (fmt 16 12 (configHash h)).length = (fmt 16 12 (configHash h')).length := by
    rw [fmt_length (by norm_num) (by norm_num) (configHash_lt h), fmt_length (by norm_num) (by norm_num) (configHash_lt h')]
  obtain ⟨h2, h3⟩ := List.append_inj h1 hl
  refine ⟨fmt_injective (by norm_num) (by norm_num) (List.append_cancel_right (List.append_cancel_left h3)), ?_⟩
  have h4 := fmt_injective (by norm_num) (by norm_num) h2
  unfold configHash at h4
  have a1 := Int.emod_nonneg h (by norm_num : (2 : Int) ^ 48 ≠ 0)
  have a2 := Int.emod_nonneg h' (by norm_num : (2 : Int) ^ 48 ≠ 0)
  omega

/-- the step number is always shown with at least 8 digits, exactly 8 up to 99999999 -/
theorem C17_step_width (n : Nat) (hn : n < 10 ^ 8) : (fmt 10 8 n).length = 8 :=
  fmt_length (by norm_num) (by norm_num) hn

example : stateFileName "results".toList (-1) 123 = "results/state_vector_ffffffffffff.00000123.npy".toList := by
  decide +kernel

example : stateFileName "r".toList 10 123456789 = "r/state_vector_00000000000a.123456789.npy".toList := by
  decide +kernel

/-! ## C18 -/

theorem lines_ne_nil (t : List Char) : lines t ≠ [] := by
  cases t with
  | nil => simp [lines]
  | cons c cs =>
    unfold lines
    split
    · simp
    · split <;> simp

theorem readlines_eq_nil {t : List Char} (h : readlines t = []) : t = [] := by
  cases t with
  | nil => rfl
  | cons c cs =>
    unfold readlines at h
    split at h
    · simp at h
    · split at h <;> simp at h

theorem join_cons_cons (c : Char) (l : List Char) (ls : List (List Char)) : join ((c :: l) :: ls) = c :: join (l :: ls) := by
  cases ls <;> simp [join]

/-- reading lines and joining them with newlines doubles every newline but a final one -/
theorem join_readlines_cons (c : Char) (cs : List Char) :
    join (readlines (c :: cs)) =
      if c = '\n' then (if cs = [] then ['\n'] else '\n' :: '\n' :: join (readlines cs)) else c :: join (readlines cs) := by
  by_cases hc : c = '\n'
  · rw [if_pos hc]
    have hrl : readlines (c :: cs) = [c] :: readlines cs := by rw [readlines, if_pos hc]
    rw [hrl]
    subst hc
    split
    · rename_i h; subst h; rfl
    · rename_i h
      cases hr : readlines cs with
      | nil => exact absurd (readlines_eq_nil hr) h
      | cons l ls => simp [join]
  · rw [if_neg hc]
    conv_lhs => unfold readlines
    rw [if_neg hc]
    cases hr : readlines cs with
    | nil => simp [join]
    | cons l ls => simp only; exact join_cons_cons c l ls

/-- same first line and same other non-empty lines -/
def SameLines (a b : List (List Char)) : Prop :=
  ∃ h t t', a = h :: t ∧ b = h :: t' ∧ t.filter (· ≠ []) = t'.filter (· ≠ [])

theorem lines_join_readlines (t : List Char) : SameLines (lines (join (readlines t))) (lines t) := by
  induction t with
  | nil => exact ⟨[], [], [], rfl, rfl, rfl⟩
  | cons c cs ih =>
    obtain ⟨h, t, t', h1, h2, h3⟩ := ih
    rw [join_readlines_cons]
    by_cases hc : c = '\n'
    · rw [if_pos hc]
      subst hc
      split
      · rename_i hcs; subst hcs
        exact ⟨[], [[]], [[]], by simp [lines], by simp [lines], rfl⟩
      · refine ⟨[], [] :: h :: t, h :: t', ?_, ?_, ?_⟩
        · rw [lines, if_pos rfl, lines, if_pos rfl, h1]
        · rw [lines, if_pos rfl, h2]
        · rw [List.filter_cons_of_neg (by simp), List.filter_cons, List.filter_cons, h3]
    · rw [if_neg hc]
      refine ⟨c :: h, t, t', ?_, ?_, h3⟩ <;> simp [lines, hc, h1, h2]

theorem SameLines.nonEmpty {a b : List Char} (h : SameLines (lines a) (lines b)) : nonEmptyLines a = nonEmptyLines b := by
  obtain ⟨x, t, t', h1, h2, h3⟩ := h
  unfold nonEmptyLines
  rw [h1, h2, List.filter_cons, List.filter_cons, h3]

/-- lines trimmed, empty ones dropped (helper) -/
def trimmedLines (sp : Char → Bool) (t : List Char) : List (List Char) := ((lines t).map (strip sp)).filter (· ≠ [])

theorem strip_nil (sp : Char → Bool) : strip sp [] = [] := rfl

theorem strip_cons_space {sp : Char → Bool} {c : Char} (h : sp c = true) (t : List Char) : strip sp (c :: t) = strip sp t := by
  unfold strip; rw [List.dropWhile_cons_of_pos h]

theorem strip_append_space {sp : Char → Bool} {c : Char} (h : sp c = true) (t : List Char) : strip sp (t ++ [c]) = strip sp t := by
  unfold strip
  rw [List.dropWhile_append]
  split
  · rename_i he
    simp only [List.isEmpty_iff] at he
    rw [he, List.dropWhile_cons_of_pos h]; rfl
  · rw [List.reverse_append, List.reverse_singleton, List.singleton_append, List.dropWhile_cons_of_pos h]

theorem trimmedLines_eq (sp : Char → Bool) (t : List Char) :
    trimmedLines sp t = ((nonEmptyLines t).map (strip sp)).filter (· ≠ []) := by
  unfold trimmedLines nonEmptyLines
  induction lines t with
  | nil => rfl
  | cons l ls ih =>
    by_cases hl : l = []
    · subst hl
      rw [List.map_cons, List.filter_cons_of_neg (by simp [strip_nil]), List.filter_cons_of_neg (by simp), ih]
    · rw [List.map_cons, List.filter_cons_of_pos (p := fun x => decide (x ≠ [])) (l := ls) (by simpa using hl), List.map_cons,
        List.filter_cons, List.filter_cons, ih]

theorem trimmedLines_cons_space {sp : Char → Bool} {c : Char} (h : sp c = true) (t : List Char) :
    trimmedLines sp (c :: t) = trimmedLines sp t := by
  unfold trimmedLines
  by_cases hc : c = '\n'
  · subst hc
    have : lines ('\n' :: t) = [] :: lines t := by simp [lines]
    rw [this, List.map_cons, List.filter_cons_of_neg (by simp [strip_nil])]
  · cases hl : lines t with
    | nil => exact absurd hl (lines_ne_nil t)
    | cons l ls =>
      have : lines (c :: t) = (c :: l) :: ls := by simp [lines, hc, hl]
      rw [this, List.map_cons, List.map_cons, strip_cons_space h]

theorem lines_append_single (t : List Char) (c : Char) :
    ∃ ls l, lines t = ls ++ [l] ∧ lines (t ++ [c]) = if c = '\n' then ls ++ [l, []] else ls ++ [l ++ [c]] := by
  induction t with
  | nil => exact ⟨[], [], rfl, by simp only [List.nil_append, lines]⟩
  | cons d t ih =>
    obtain ⟨ls, l, h1, h2⟩ := ih
    by_cases hd : d = '\n'
    · refine ⟨[] :: ls, l, by simp [lines, hd, h1], ?_⟩
      rw [List.cons_append, lines, if_pos hd, h2]
      split <;> simp
    · cases ls with
      | nil =>
        refine ⟨[], d :: l, by simp [lines, hd, h1], ?_⟩
        rw [List.cons_append, lines, if_neg hd, h2]
        by_cases hc : c = '\n'
        · rw [if_pos hc, if_pos hc]; rfl
        · rw [if_neg hc, if_neg hc]; rfl
      | cons x xs =>
        refine ⟨(d :: x) :: xs, l, by simp [lines, hd, h1], ?_⟩
        rw [List.cons_append, lines, if_neg hd, h2]
        by_cases hc : c = '\n'
        · rw [if_pos hc, if_pos hc]; rfl
        · rw [if_neg hc, if_neg hc]; rfl

theorem trimmedLines_append_space {sp : Char → Bool} {c : Char} (h : sp c = true) (t : List Char) :
    trimmedLines sp (t ++ [c]) = trimmedLines sp t := by
  obtain ⟨ls, l, h1, h2⟩ := lines_append_single t c
  unfold trimmedLines
  rw [h1, h2]
  split
  · have : ls ++ [l, []] = (ls ++ [l]) ++ [[]] := by simp
    rw [this, List.map_append, List.filter_append, List.map_singleton, strip_nil,
      List.filter_cons_of_neg (by simp), List.filter_nil, List.append_nil]
  · simp only [List.map_append, List.map_cons, strip_append_space h]

theorem trimmedLines_strip (sp : Char → Bool) (t : List Char) : trimmedLines sp (strip sp t) = trimmedLines sp t := by
  have h1 : ∀ t, trimmedLines sp (t.dropWhile sp) = trimmedLines sp t := by
    intro t
    induction t with
    | nil => rfl
    | cons c t ih =>
      by_cases hc : sp c = true
      · rw [List.dropWhile_cons_of_pos hc, ih, trimmedLines_cons_space hc]
      · rw [List.dropWhile_cons_of_neg hc]
  have h2 : ∀ t : List Char, trimmedLines sp (t.dropWhile sp).reverse = trimmedLines sp t.reverse := by
    intro t
    induction t with
    | nil => rfl
    | cons c t ih =>
      by_cases hc : sp c = true
      · rw [List.dropWhile_cons_of_pos hc, ih, List.reverse_cons, trimmedLines_append_space hc]
      · rw [List.dropWhile_cons_of_neg hc]
  unfold strip
  rw [h2, List.reverse_reverse, h1]

theorem dropWhile_all (sp : Char → Bool) (t : List Char) :
    ∃ a, t = a ++ t.dropWhile sp ∧ (∀ c ∈ a, sp c) ∧ (∀ c, (t.dropWhile sp).head? = some c → sp c = false) := by
  refine ⟨t.takeWhile sp, (List.takeWhile_append_dropWhile).symm, ?_, ?_⟩
  · intro c hc
    have := List.all_takeWhile (p := sp) (l := t)
    exact List.all_eq_true.1 this c hc
  intro c hc
  cases hd : t.dropWhile sp with
  | nil => rw [hd] at hc; simp at hc
  | cons d ds =>
    rw [hd] at hc
    simp only [List.head?_cons, Option.some.injEq] at hc
    subst hc
    have := List.head_dropWhile_not sp (l := t) (by rw [hd]; simp)
    simpa [hd] using this

theorem strip_isTrimmed (sp : Char → Bool) (t : List Char) : IsTrimmed sp t (strip sp t) := by
  obtain ⟨a, h1, h2, h3⟩ := dropWhile_all sp t
  obtain ⟨b, h4, h5, h6⟩ := dropWhile_all sp (t.dropWhile sp).reverse
  have h7 : t.dropWhile sp = strip sp t ++ b.reverse := by
    unfold strip
    have := congrArg List.reverse h4
    rw [List.reverse_reverse, List.reverse_append] at this
    exact this
  refine ⟨a, b.reverse, ?_, h2, ?_, ?_, ?_⟩
  · rw [List.append_assoc, ← h7]; exact h1
  · intro c hc; exact h5 c (List.mem_reverse.1 hc)
  · intro c hc
    apply h3 c
    rw [h7]
    cases hs : strip sp t with
    | nil => rw [hs] at hc; simp at hc
    | cons d ds => rw [hs] at hc; simpa using hc
  · intro c hc
    apply h6 c
    unfold strip at hc
    simpa using hc

theorem strip_eq_self {sp : Char → Bool} {t : List Char} (h1 : ∀ c, t.head? = some c → sp c = false)
    (h2 : ∀ c, t.getLast? = some c → sp c = false) : strip sp t = t := by
  have hd : ∀ t : List Char, (∀ c, t.head? = some c → sp c = false) → t.dropWhile sp = t := by
    intro t h
    cases t with
    | nil => rfl
    | cons c cs => rw [List.dropWhile_cons_of_neg (by rw [h c rfl]; simp)]
  unfold strip
  rw [hd t h1, hd t.reverse (by intro c hc; apply h2 c; simpa using hc), List.reverse_reverse]

theorem dropWhile_append_all {sp : Char → Bool} {a : List Char} (h : ∀ c ∈ a, sp c) (t : List Char) :
    (a ++ t).dropWhile sp = t.dropWhile sp := by
  induction a with
  | nil => rfl
  | cons c cs ih =>
    rw [List.cons_append, List.dropWhile_cons_of_pos (h c (by simp)), ih fun d hd => h d (by simp [hd])]

theorem isTrimmed_unique {sp : Char → Bool} {t s : List Char} (h : IsTrimmed sp t s) : s = strip sp t := by
  obtain ⟨a, b, rfl, ha, hb, h1, h2⟩ := h
  unfold strip
  rw [List.append_assoc, dropWhile_append_all ha]
  cases s with
  | nil =>
    have : ([] ++ b).dropWhile sp = [] := by
      have := dropWhile_append_all hb []
      simpa using this
    rw [this]; rfl
  | cons c cs =>
    rw [List.cons_append, List.dropWhile_cons_of_neg (by rw [h1 c rfl]; simp), ← List.cons_append, List.reverse_append,
      dropWhile_append_all (fun d hd => hb d (List.mem_reverse.1 hd))]
    have : (c :: cs).reverse.dropWhile sp = (c :: cs).reverse := by
      cases hr : (c :: cs).reverse with
      | nil => rfl
      | cons d ds =>
        have hl : (c :: cs).getLast? = some d := by
          rw [List.getLast?_eq_head?_reverse, hr]; rfl
        rw [List.dropWhile_cons_of_neg (by rw [h2 d hl]; simp)]
    rw [this, List.reverse_reverse]

theorem readline_append (v rest : List Char) (h : '\n' ∉ v) : readline (v ++ '\n' :: rest) = (v ++ ['\n'], rest) := by
  induction v with
  | nil => simp [readline]
  | cons c cs ih =>
    simp only [List.mem_cons, not_or] at h
    rw [List.cons_append, readline, if_neg (Ne.symm h.1), ih h.2]; rfl

theorem join_readlines_head (t : List Char) : (join (readlines t)).head? = t.head? := by
  cases t with
  | nil => rfl
  | cons c cs =>
    rw [join_readlines_cons]
    split
    · rename_i hc; subst hc; split <;> rfl
    · rfl

theorem join_readlines_last (t : List Char) : (join (readlines t)).getLast? = t.getLast? := by
  induction t with
  | nil => rfl
  | cons c cs ih =>
    rw [join_readlines_cons]
    cases cs with
    | nil => by_cases hc : c = '\n' <;> simp [hc, readlines, join]
    | cons d ds =>
      rw [List.getLast?_cons_cons, ← ih]
      have hne : join (readlines (d :: ds)) ≠ [] := by
        intro h0
        have := join_readlines_head (d :: ds)
        rw [h0] at this
        simp at this
      obtain ⟨x, xs, hx⟩ : ∃ x xs, join (readlines (d :: ds)) = x :: xs := List.exists_cons_of_ne_nil hne
      rw [hx]
      split
      · simp
      · rw [List.getLast?_cons_cons]

/-- **C18.** Whatever the array format (as long as it reads back what it wrote, leaving the rest of the file), loading a
saved state returns the saved array and a configuration text which, line by line and apart from white space around
lines, has the same non-blank lines in the same order as the saved one.  If the saved text neither begins nor ends
with white space its non-empty lines are read back exactly.  (`version` is the schema version, a single line.) -/
theorem C18_state_round_trip {A : Type*} (codec : Codec A) (hcodec : ∀ a rest, codec.load (codec.save a ++ rest) = some (a, rest))
    (sp : Char → Bool) (state : A) (version content : List Char) (hv : '\n' ∉ version) :
    ∃ text, loadState codec sp (saveState codec state version content) = some (state, text) ∧
      (∀ trim : List Char → List Char, (∀ l, IsTrimmed sp l (trim l)) →
        ((nonEmptyLines text).map trim).filter (· ≠ []) = ((nonEmptyLines content).map trim).filter (· ≠ [])) ∧
      ((∀ c, content.head? = some c → sp c = false) → (∀ c, content.getLast? = some c → sp c = false) →
        nonEmptyLines text = nonEmptyLines content) := by
  refine ⟨strip sp (join (readlines content)), ?_, ?_, ?_⟩
  · unfold loadState saveState
    rw [List.append_assoc, hcodec]
    simp only [Option.map_some, List.append_assoc, List.singleton_append]
    rw [readline_append version content hv]
  · intro trim htrim
    have : trim = strip sp := funext fun l => isTrimmed_unique (htrim l)
    subst this
    rw [← trimmedLines_eq, ← trimmedLines_eq, trimmedLines_strip, trimmedLines_eq, trimmedLines_eq,
      (lines_join_readlines content).nonEmpty]
  · intro h1 h2
    rw [strip_eq_self (by rw [join_readlines_head]; exact h1) (by rw [join_readlines_last]; exact h2)]
    exact (lines_join_readlines content).nonEmpty

/-- The trimming used above is the removal of white space at both ends. -/
theorem C18_strip_spec (sp : Char → Bool) (t : List Char) : IsTrimmed sp t (strip sp t) := strip_isTrimmed sp t

/-- Configuration files themselves are read (`readfile`) with the same non-empty lines. -/
theorem C18_readfile (file : List Char) : nonEmptyLines (readfile file) = nonEmptyLines file :=
  (lines_join_readlines file).nonEmpty

/-- The text is not preserved exactly: newlines are doubled at each save and load. -/
example : readfile "[A]\nx=1".toList = "[A]\n\nx=1".toList := by decide +kernel

/-- a codec that satisfies the law: one character per natural number below, here for booleans -/
def boolCodec : Codec Bool where
  save b := [if b then '1' else '0']
  load | [] => none | c :: cs => some (c == '1', cs)

example : (∀ a rest, boolCodec.load (boolCodec.save a ++ rest) = some (a, rest)) ∧ '\n' ∉ "0.1".toList ∧
    loadState boolCodec Char.isWhitespace (saveState boolCodec true "0.1".toList "[A]\nx = 1\n".toList) =
      some (true, "[A]\n\nx = 1".toList) := by
  refine ⟨?_, by decide, by decide +kernel⟩
  intro a rest
  cases a <;> rfl

/-! ## C19 -/

section
variable {K : Type*} [Field K] [LinearOrder K] [IsStrictOrderedRing K] [FloorRing K]

/-- **C19 is false of the code**: no text is produced for any (floating-point) duration above 1000 s. -/
theorem C19_long_durations_fail (x : K) (hx : 1000 < x) : readableTime (.float x) = none := by
  have h1 : ¬ x = 0 := by rintro rfl; linarith
  have h2 : ¬ x < 1 / 1000000 := by
    intro h
    have : (1 : K) / 1000000 < 1 := by rw [div_lt_one] <;> norm_num
    linarith
  have h3 : ¬ x < 1 / 1000 := by
    intro h
    have : (1 : K) / 1000 < 1 := by rw [div_lt_one] <;> norm_num
    linarith
  have h4 : ¬ x < 1 := by intro h; linarith
  unfold readableTime
  simp only [PyNum.val]
  simp only [h1, h2, h3, h4, gt_iff_lt, hx, ↓reduceIte]
  simp [fmt02d]

/-- what a printed duration means, in seconds -/
def Duration.seconds : Duration K → K
  | .zero => 0
  | .ns x => x / 1000000000
  | .us x => x / 1000000
  | .ms x => x / 1000
  | .plain x => x
  | .hms h m s => h * 3600 + m * 60 + s

/-- number shown next to the unit -/
def Duration.shown : Duration K → K
  | .zero => 0
  | .ns x => x
  | .us x => x
  | .ms x => x
  | .plain x => x
  | .hms h _ _ => h

/-- **C19, what holds.** Every duration from 0 to 1000 s is printed; the printed number and unit denote the duration,
and the number shown is less than or equal to 1000, and at least 1 as soon as the duration is a nanosecond.  Missing
from the full property: durations above 1000 s (see `C19_long_durations_fail`). -/
theorem C19_durations_partial (x : K) (h0 : 0 ≤ x) (hx : x ≤ 1000) :
    ∃ d, readableTime (.float x) = some d ∧ Duration.seconds d = x ∧ Duration.shown d ≤ 1000 ∧
      (1 / 1000000000 ≤ x → 1 ≤ Duration.shown d) := by
  unfold readableTime
  simp only [PyNum.val]
  by_cases e0 : x = 0
  · subst e0
    simp only [↓reduceIte]
    refine ⟨_, rfl, rfl, by simp [Duration.shown], ?_⟩
    intro h; exfalso
    have : (0 : K) < 1 / 1000000000 := by positivity
    linarith
  simp only [e0, ↓reduceIte]
  by_cases e1 : x < 1 / 1000000
  · simp only [e1, ↓reduceIte]
    refine ⟨_, rfl, ?_, ?_, ?_⟩
    · simp only [Duration.seconds]; field_simp
    · simp only [Duration.shown]
      rw [lt_div_iff₀ (by norm_num)] at e1
      linarith
    · intro h'
      simp only [Duration.shown]
      rw [div_le_iff₀ (by norm_num)] at h'
      exact h'
  simp only [e1, ↓reduceIte]
  rw [not_lt, div_le_iff₀ (by norm_num)] at e1
  by_cases e2 : x < 1 / 1000
  · simp only [e2, ↓reduceIte]
    refine ⟨_, rfl, ?_, ?_, ?_⟩
    · simp only [Duration.seconds]; field_simp
    · simp only [Duration.shown]
      rw [lt_div_iff₀ (by norm_num)] at e2
      linarith
    · intro _; exact e1
  simp only [e2, ↓reduceIte]
  rw [not_lt, div_le_iff₀ (by norm_num)] at e2
  by_cases e3 : x < 1
  · simp only [e3, ↓reduceIte]
    refine ⟨_, rfl, ?_, ?_, ?_⟩
    · simp only [Duration.seconds]; field_simp
    · simp only [Duration.shown]; linarith
    · intro _; exact e2
  simp only [e3, gt_iff_lt, not_lt.2 hx, ↓reduceIte]
  exact ⟨_, rfl, rfl, hx, fun _ => not_lt.1 e3⟩

/-- For an integer above 1000 a text is printed, but it always shows 0 minutes and 0 seconds. -/
theorem C19_integers_lose_minutes (n : Int) (hn : 1000 < n) :
    readableTime (K := K) (.int n) = some (.hms (n / 3600) 0 0) := by
  have hx : (1000 : K) < n := by exact_mod_cast hn
  have h1 : ¬ (n : K) = 0 := by intro h; rw [h] at hx; linarith
  have h2 : ¬ (n : K) < 1 / 1000000 := by
    intro h
    have : (1 : K) / 1000000 < 1 := by rw [div_lt_one] <;> norm_num
    linarith
  have h3 : ¬ (n : K) < 1 / 1000 := by
    intro h
    have : (1 : K) / 1000 < 1 := by rw [div_lt_one] <;> norm_num
    linarith
  have h4 : ¬ (n : K) < 1 := by intro h; linarith
  unfold readableTime
  simp only [PyNum.val]
  simp only [h1, h2, h3, h4, gt_iff_lt, hx, ↓reduceIte]
  simp [fmt02d]

end

example : readableTime (K := ℚ) (.float 1001) = none := C19_long_durations_fail _ (by norm_num)
example : readableTime (K := ℚ) (.float (1 / 2)) = some (.ms 500) := by
  unfold readableTime PyNum.val; norm_num
example : readableTime (K := ℚ) (.int 3725) = some (.hms 1 0 0) := by
  rw [C19_integers_lose_minutes _ (by norm_num)]; norm_num

end WxVerif.Props.Output
