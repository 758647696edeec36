import Verif.Model.ConfigPrint
import Verif.Spec.ConfigPrint
import Mathlib.Data.List.Basic
import Mathlib.Data.List.Perm.Basic

/-!
# Lemmas on the printed configuration
-/

namespace WxVerif.Lemmas.ConfigPrint

open WxVerif.ConfigPrint WxVerif.ConfigPrintSpec

theorem pieces_ne_nil (c : Char) (t : Text) : pieces c t ≠ [] := by
  cases t with
  | nil => simp [pieces]
  | cons x xs =>
    unfold pieces
    split
    · simp
    · split <;> simp

theorem pieces_none {c : Char} {t : Text} (h : c ∉ t) : pieces c t = [t] := by
  induction t with
  | nil => rfl
  | cons x xs ih =>
    have hx : x ≠ c := fun e => h (by simp [e])
    have hxs : c ∉ xs := fun e => h (by simp [e])
    unfold pieces
    rw [if_neg hx, ih hxs]

theorem pieces_append {c : Char} {t : Text} (h : c ∉ t) (b : Text) : pieces c (t ++ c :: b) = t :: pieces c b := by
  induction t with
  | nil => show pieces c (c :: b) = _; simp [pieces]
  | cons x xs ih =>
    have hx : x ≠ c := fun e => h (by simp [e])
    have hxs : c ∉ xs := fun e => h (by simp [e])
    show pieces c (x :: (xs ++ c :: b)) = _
    rw [pieces, if_neg hx, ih hxs]

/-- lines written each after a line break -/
def joined (lines : List Text) : Text := lines.flatMap fun l => '\n' :: l

theorem joined_append (a b : List Text) : joined (a ++ b) = joined a ++ joined b := by simp [joined]

theorem pieces_joined (first : Text) (h : '\n' ∉ first) (lines : List Text) (hl : ∀ l ∈ lines, '\n' ∉ l) :
    pieces '\n' (first ++ joined lines) = first :: lines := by
  induction lines generalizing first with
  | nil => simpa [joined] using pieces_none h
  | cons l ls ih =>
    have : first ++ joined (l :: ls) = first ++ '\n' :: (l ++ joined ls) := by simp [joined]
    rw [this, pieces_append h, ih l (hl l (by simp)) fun m hm => hl m (by simp [hm])]

theorem trimEnd_replicate (c : Char) (t : Text) (k : Nat) : trimEnd c (t ++ List.replicate k c) = trimEnd c t := by
  unfold trimEnd
  rw [List.reverse_append, List.reverse_replicate]
  congr 1
  induction k with
  | zero => simp
  | succ k ih => rw [List.replicate_succ, List.cons_append, List.dropWhile_cons]; simpa using ih

theorem entry_eq (a b : Text) (h : ':' ∉ a) :
    entry (' ' :: (a ++ ':' :: ' ' :: b)) = some (trimEnd ' ' a, trimEnd ' ' b) := by
  have h' : ':' ∉ ' ' :: a := by simpa using h
  have e : ' ' :: (a ++ ':' :: ' ' :: b) = (' ' :: a) ++ ':' :: ' ' :: b := by simp
  unfold entry
  rw [if_pos (by simp), e]
  have hall : ∀ x ∈ ' ' :: a, decide (x ≠ ':') = true := by
    intro x hx
    simp only [decide_eq_true_eq]
    rintro rfl
    exact h' hx
  rw [List.takeWhile_append_of_pos hall, List.dropWhile_append_of_pos hall]
  simp

/-- an entry of the printed text, followed by spaces, is read as its name and value -/
theorem entry_pad {n v : Text} (hn : CleanName n) (hv : CleanValue v) (k : Nat) :
    entry (' ' :: (pad 25 n ++ ':' :: ' ' :: (v ++ List.replicate k ' '))) = some (n, v) := by
  rw [entry_eq]
  · unfold pad
    rw [trimEnd_replicate, trimEnd_replicate, hn.1.2.2, hv.2.2]
  · unfold pad
    simp [hn.2]

/-- the text of a short entry after its first bar -/
def cell (e : Text × Text) : Text := ' ' :: (pad 25 e.1 ++ ':' :: ' ' :: pad 13 e.2)

/-- the lines of the short entries, two by two -/
def shortLines : List (Text × Text) → List Text
  | [] => []
  | [e] => [' ' :: '|' :: (cell e ++ [' ', '|'])]
  | e :: f :: es => (' ' :: '|' :: (cell e ++ ' ' :: '|' :: cell f)) :: shortLines es

/-- the line of a long entry -/
def longLine (e : Text × Text) : Text := ' ' :: '|' :: ' ' :: (pad 25 e.1 ++ ':' :: ' ' :: e.2)

/-- name and value can be read back -/
def CleanEntry (e : Text × Text) : Prop := CleanName e.1 ∧ CleanValue e.2

theorem cell_clean {e : Text × Text} (h : CleanEntry e) : '|' ∉ cell e ∧ '\n' ∉ cell e := by
  obtain ⟨⟨⟨h1, h2, -⟩, -⟩, ⟨h3, h4, -⟩⟩ := h
  unfold cell pad
  simp [h1, h2, h3, h4]

theorem entry_cell {e : Text × Text} (h : CleanEntry e) : entry (cell e) = some e := by
  unfold cell
  rw [show pad 13 e.2 = e.2 ++ List.replicate (13 - e.2.length) ' ' from rfl]
  exact entry_pad h.1 h.2 _

theorem entry_cell_space {e : Text × Text} (h : CleanEntry e) : entry (cell e ++ [' ']) = some e := by
  have : cell e ++ [' '] = ' ' :: (pad 25 e.1 ++ ':' :: ' ' :: (e.2 ++ List.replicate (13 - e.2.length + 1) ' ')) := by
    unfold cell
    rw [show pad 13 e.2 = e.2 ++ List.replicate (13 - e.2.length) ' ' from rfl, List.replicate_succ']
    simp
  rw [this]
  exact entry_pad h.1 h.2 _

theorem entries_one {e : Text × Text} (h : CleanEntry e) : entries (' ' :: '|' :: (cell e ++ [' ', '|'])) = [e] := by
  unfold entries
  rw [show ' ' :: '|' :: (cell e ++ [' ', '|']) = [' '] ++ '|' :: ((cell e ++ [' ']) ++ '|' :: []) by simp,
    pieces_append (by decide), pieces_append (by simpa using (cell_clean h).1), pieces_none (by simp)]
  rw [List.filterMap_cons_none (by decide), List.filterMap_cons_some (entry_cell_space h),
    List.filterMap_cons_none (by decide)]
  rfl

theorem entries_two {e f : Text × Text} (he : CleanEntry e) (hf : CleanEntry f) :
    entries (' ' :: '|' :: (cell e ++ ' ' :: '|' :: cell f)) = [e, f] := by
  unfold entries
  rw [show ' ' :: '|' :: (cell e ++ ' ' :: '|' :: cell f) = [' '] ++ '|' :: ((cell e ++ [' ']) ++ '|' :: cell f) by simp,
    pieces_append (by decide), pieces_append (by simpa using (cell_clean he).1), pieces_none (cell_clean hf).1]
  rw [List.filterMap_cons_none (by decide), List.filterMap_cons_some (entry_cell_space he),
    List.filterMap_cons_some (entry_cell hf)]
  rfl

theorem entries_long {e : Text × Text} (h : CleanEntry e) : entries (longLine e) = [e] := by
  obtain ⟨⟨⟨h1, h2, h5⟩, h6⟩, ⟨h3, h4, h7⟩⟩ := h
  unfold entries
  rw [show longLine e = [' '] ++ '|' :: (' ' :: (pad 25 e.1 ++ ':' :: ' ' :: (e.2 ++ List.replicate 0 ' '))) by
      simp [longLine],
    pieces_append (by decide), pieces_none (by unfold pad; simp [h2, h4])]
  rw [List.filterMap_cons_none (by decide),
    List.filterMap_cons_some (entry_pad ⟨⟨h1, h2, h5⟩, h6⟩ ⟨h3, h4, h7⟩ 0)]
  rfl

theorem shortLines_clean (es : List (Text × Text)) (h : ∀ e ∈ es, CleanEntry e) : ∀ l ∈ shortLines es, '\n' ∉ l := by
  induction es using shortLines.induct with
  | case1 => simp [shortLines]
  | case2 e => have := (cell_clean (h e (by simp))).2; simp [shortLines, this]
  | case3 e f es ih =>
    have h1 := (cell_clean (h e (by simp))).2
    have h2 := (cell_clean (h f (by simp))).2
    intro l hl
    simp only [shortLines, List.mem_cons] at hl
    rcases hl with rfl | hl
    · simp [h1, h2]
    · exact ih (fun g hg => h g (by simp [hg])) l hl

theorem longLine_clean {e : Text × Text} (h : CleanEntry e) : '\n' ∉ longLine e := by
  obtain ⟨⟨⟨h1, -, -⟩, -⟩, ⟨h3, -, -⟩⟩ := h
  unfold longLine pad
  simp [h1, h3]

theorem readLines_bar (x : Text) (rest : List Text) :
    readLines ((' ' :: '|' :: x) :: rest) =
      (entries (' ' :: '|' :: x) ++ (readLines rest).1, (readLines rest).2) := by
  conv_lhs => unfold readLines
  rfl

theorem readLines_short (es : List (Text × Text)) (h : ∀ e ∈ es, CleanEntry e) (rest : List Text) :
    readLines (shortLines es ++ rest) = (es ++ (readLines rest).1, (readLines rest).2) := by
  induction es using shortLines.induct with
  | case1 => simp [shortLines]
  | case2 e =>
    show readLines ((' ' :: '|' :: (cell e ++ [' ', '|'])) :: rest) = _
    rw [readLines_bar, entries_one (h e (by simp))]
  | case3 e f es ih =>
    show readLines ((' ' :: '|' :: (cell e ++ ' ' :: '|' :: cell f)) :: (shortLines es ++ rest)) = _
    rw [readLines_bar, entries_two (h e (by simp)) (h f (by simp)), ih fun g hg => h g (by simp [hg])]
    simp

theorem readLines_long (es : List (Text × Text)) (h : ∀ e ∈ es, CleanEntry e) (rest : List Text) :
    readLines (es.map longLine ++ rest) = (es ++ (readLines rest).1, (readLines rest).2) := by
  induction es with
  | nil => simp
  | cons e es ih =>
    show readLines ((' ' :: '|' :: ' ' :: (pad 25 e.1 ++ ':' :: ' ' :: e.2)) :: (es.map longLine ++ rest)) = _
    have hl := entries_long (h e (by simp))
    unfold longLine at hl
    rw [readLines_bar, hl, ih fun g hg => h g (by simp [hg])]
    simp

/-- the line that names a section -/
def headLine (s : Text) : Text := ' ' :: ' ' :: (centre 80 (' ' :: (s ++ [' '])) ++ [' ', ' '])

theorem dropLast_two (t : Text) (a b : Char) : (t ++ [a, b]).dropLast.dropLast = t := by
  rw [show t ++ [a, b] = (t ++ [a]) ++ [b] by simp, List.dropLast_concat, List.dropLast_concat]

theorem dropWhile_replicate (c : Char) (k : Nat) (t : Text) :
    (List.replicate k c ++ t).dropWhile (· = c) = t.dropWhile (· = c) := by
  induction k with
  | zero => simp
  | succ k ih => rw [List.replicate_succ, List.cons_append, List.dropWhile_cons]; simpa using ih

theorem title_head (s : Text) : title (headLine s) = s := by
  unfold title headLine
  rw [show (' ' :: ' ' :: (centre 80 (' ' :: (s ++ [' '])) ++ [' ', ' '])).drop 2 =
    centre 80 (' ' :: (s ++ [' '])) ++ [' ', ' '] from rfl, dropLast_two]
  unfold centre
  rw [List.append_assoc, dropWhile_replicate]
  generalize 80 - (' ' :: (s ++ [' '])).length - (80 - (' ' :: (s ++ [' '])).length) / 2 = k
  rw [show (' ' :: (s ++ [' ']) ++ List.replicate k '-').dropWhile (· = '-') =
      ' ' :: (s ++ [' ']) ++ List.replicate k '-' by
    rw [List.cons_append, List.dropWhile_cons]; simp]
  rw [trimEnd_replicate]
  have : trimEnd '-' (' ' :: (s ++ [' '])) = ' ' :: (s ++ [' ']) := by
    unfold trimEnd
    rw [show (' ' :: (s ++ [' '])).reverse = ' ' :: (s.reverse ++ [' ']) by simp, List.dropWhile_cons]
    simp
  rw [this]
  show (s ++ [' ']).dropLast = s
  simp

theorem readLines_head (s : Text) (rest : List Text) :
    readLines ([] :: headLine s :: rest) = ([], (s, (readLines rest).1) :: (readLines rest).2) := by
  have h1 : readLines (headLine s :: rest) = ([], (title (headLine s), (readLines rest).1) :: (readLines rest).2) := by
    conv_lhs => unfold readLines
    rfl
  rw [title_head] at h1
  rw [← h1]
  conv_lhs => unfold readLines

/-! ## The printed text in lines -/

/-- is the option printed in the two columns? -/
def IsShort (value : String → Text) (o : String) : Prop := o.toList.length < 26 ∧ (value o).length < 14

instance (value : String → Text) (o : String) : Decidable (IsShort value o) := by unfold IsShort; infer_instance

/-- name and text of an option -/
def pairOf (value : String → Text) (o : String) : Text × Text := (o.toList, value o)

/-- the short options -/
def shorts (value : String → Text) (os : List String) : List String := os.filter fun o => IsShort value o

/-- the other options -/
def longs (value : String → Text) (os : List String) : List String := os.filter fun o => ¬ IsShort value o

/-- the text added by short entries when `i` were printed before -/
def shortText : Nat → List (Text × Text) → Text
  | _, [] => []
  | i, e :: es => (if i % 2 = 0 then ['\n'] else []) ++ (' ' :: '|' :: cell e) ++ shortText (i + 1) es

theorem shortText_add_two (es : List (Text × Text)) (i : Nat) : shortText (i + 2) es = shortText i es := by
  induction es generalizing i with
  | nil => rfl
  | cons e es ih =>
    unfold shortText
    rw [show i + 2 + 1 = (i + 1) + 2 by ring, ih, Nat.add_mod_right]

theorem shortText_lines (es : List (Text × Text)) :
    shortText 0 es ++ (if es.length % 2 = 1 then " |".toList else []) = joined (shortLines es) := by
  induction es using shortLines.induct with
  | case1 => simp [shortText, shortLines, joined]
  | case2 e => simp [shortText, shortLines, joined]
  | case3 e f es ih =>
    have e1 : shortText 0 (e :: f :: es) =
        '\n' :: ' ' :: '|' :: (cell e ++ ' ' :: '|' :: (cell f ++ shortText 0 es)) := by
      simp [shortText, shortText_add_two]
    have e2 : (e :: f :: es).length % 2 = es.length % 2 := by simp [Nat.add_assoc]
    rw [e1, e2]
    unfold shortLines
    rw [show ∀ (l : Text) ls, joined (l :: ls) = '\n' :: (l ++ joined ls) from fun l ls => by simp [joined], ← ih]
    simp

theorem fold_options (value : String → Text) (os : List String) (hnd : os.Nodup) (out : Text)
    (long : List (String × Text)) (hlong : ∀ o ∈ os, o ∉ long.map Prod.fst) (i : Nat) :
    os.foldl (optionStep value) (out, long, i) =
      (out ++ shortText i ((shorts value os).map (pairOf value)),
        long ++ (longs value os).map (fun o => (o, value o)), i + (shorts value os).length) := by
  induction os generalizing out long i with
  | nil => simp [shorts, longs, shortText]
  | cons o os ih =>
    rw [List.nodup_cons] at hnd
    rw [List.foldl_cons]
    by_cases hs : IsShort value o
    · have e : optionStep value (out, long, i) o =
          (out ++ ((if i % 2 = 0 then ['\n'] else []) ++ (' ' :: '|' :: cell (pairOf value o))), long, i + 1) := by
        unfold optionStep
        dsimp only
        rw [if_pos (show o.toList.length < 26 ∧ (value o).length < 14 from hs)]
        simp [cell, pairOf]
      rw [e, ih hnd.2 _ _ (fun p hp => hlong p (by simp [hp]))]
      have e1 : shorts value (o :: os) = o :: shorts value os := by simp [shorts, hs]
      have e2 : longs value (o :: os) = longs value os := by simp [longs, hs]
      rw [e1, e2, List.map_cons]
      simp [shortText, Nat.add_assoc, Nat.add_comm]
    · have e : optionStep value (out, long, i) o = (out, long ++ [(o, value o)], i) := by
        unfold optionStep
        dsimp only
        rw [if_neg (show ¬ (o.toList.length < 26 ∧ (value o).length < 14) from hs)]
        unfold setLong
        rw [if_neg (hlong o (by simp))]
      rw [e, ih hnd.2]
      · have e1 : shorts value (o :: os) = shorts value os := by simp [shorts, hs]
        have e2 : longs value (o :: os) = o :: longs value os := by simp [longs, hs]
        rw [e1, e2]
        simp
      · intro p hp
        rw [List.map_append, List.mem_append, not_or]
        refine ⟨hlong p (by simp [hp]), ?_⟩
        simp only [List.map_cons, List.map_nil, List.mem_singleton]
        rintro rfl
        exact hnd.1 hp

theorem fold_long (es : List (String × Text)) (out : Text) :
    es.foldl (fun out e => out ++ ("\n | ".toList ++ pad 25 e.1.toList ++ ": ".toList ++ e.2)) out =
      out ++ joined (es.map fun e => longLine (e.1.toList, e.2)) := by
  induction es generalizing out with
  | nil => simp [joined]
  | cons e es ih =>
    rw [List.foldl_cons, ih]
    simp [joined, longLine]

/-- the lines of a section after the empty one -/
def sectionLines (value : String → Text) (s : String × List String) : List Text :=
  headLine s.1.toList :: (shortLines ((shorts value s.2).map (pairOf value)) ++
    ((longs value s.2).map (pairOf value)).map longLine)

theorem sectionText_eq (value : String → Text) (s : String × List String) (hnd : s.2.Nodup) :
    sectionText value s = joined (sectionLines value s) ++ ['\n'] := by
  unfold sectionText
  dsimp only
  rw [fold_options value s.2 hnd _ [] (by simp) 0]
  dsimp only
  rw [fold_long, List.nil_append, Nat.zero_add]
  congr 1
  have e := shortText_lines ((shorts value s.2).map (pairOf value))
  rw [List.length_map] at e
  unfold sectionLines
  rw [show ∀ (l : Text) ls, joined (l :: ls) = '\n' :: (l ++ joined ls) from fun l ls => by simp [joined],
    joined_append, ← e, List.map_map, List.map_map]
  simp [headLine, Function.comp_def, pairOf]

theorem printSections_eq (value : String → Text) (sections : List (String × List String))
    (hnd : ∀ s ∈ sections, s.2.Nodup) :
    printSections value sections =
      "Configuration: ".toList ++ joined (sections.flatMap (fun s => [] :: sectionLines value s) ++ [[]]) := by
  have key : ∀ (ss : List (String × List String)) (out : Text), (∀ s ∈ ss, s.2.Nodup) →
      ss.foldl (fun out s => out ++ sectionText value s) (out ++ ['\n']) =
        out ++ joined (ss.flatMap (fun s => [] :: sectionLines value s) ++ [[]]) := by
    intro ss
    induction ss with
    | nil => intro out _; simp [joined]
    | cons s ss ih =>
      intro out h
      rw [List.foldl_cons, sectionText_eq value s (h s (by simp)), ← List.append_assoc,
        ih _ fun r hr => h r (by simp [hr])]
      simp [joined]
  have := key sections "Configuration: ".toList hnd
  rw [show "Configuration: ".toList ++ ['\n'] = "Configuration: \n".toList by decide +kernel] at this
  exact this

theorem headLine_clean {s : Text} (h : '\n' ∉ s) : '\n' ∉ headLine s := by
  unfold headLine centre
  simp [h]

/-- what is read from the printed sections -/
theorem readBack_print (value : String → Text) (sections : List (String × List String))
    (hnd : ∀ s ∈ sections, s.2.Nodup) (hsec : ∀ s ∈ sections, '\n' ∉ s.1.toList)
    (hclean : ∀ s ∈ sections, ∀ o ∈ s.2, CleanEntry (pairOf value o)) :
    readBack (printSections value sections) = sections.map fun s =>
      (s.1.toList, (shorts value s.2).map (pairOf value) ++ (longs value s.2).map (pairOf value)) := by
  have hS : ∀ s ∈ sections, ∀ e ∈ (shorts value s.2).map (pairOf value), CleanEntry e := by
    intro s hs e he
    obtain ⟨o, ho, rfl⟩ := List.mem_map.1 he
    exact hclean s hs o (List.mem_filter.1 ho).1
  have hL : ∀ s ∈ sections, ∀ e ∈ (longs value s.2).map (pairOf value), CleanEntry e := by
    intro s hs e he
    obtain ⟨o, ho, rfl⟩ := List.mem_map.1 he
    exact hclean s hs o (List.mem_filter.1 ho).1
  unfold readBack
  rw [printSections_eq value sections hnd, pieces_joined _ (by decide)]
  · have hfirst : ∀ rest, readLines ("Configuration: ".toList :: rest) = readLines rest := by
      intro rest
      conv_lhs => unfold readLines
      rfl
    rw [hfirst]
    have key : ∀ ss : List (String × List String), (∀ s ∈ ss, s ∈ sections) →
        readLines (ss.flatMap (fun s => [] :: sectionLines value s) ++ [[]]) = ([], ss.map fun s =>
          (s.1.toList, (shorts value s.2).map (pairOf value) ++ (longs value s.2).map (pairOf value))) := by
      intro ss
      induction ss with
      | nil => intro _; rfl
      | cons s ss ih =>
        intro h
        have hs := h s (by simp)
        rw [List.flatMap_cons, List.append_assoc]
        unfold sectionLines
        rw [List.cons_append, List.cons_append, readLines_head, List.append_assoc, readLines_short _ (hS s hs),
          readLines_long _ (hL s hs)]
        have e := ih fun r hr => h r (by simp [hr])
        unfold sectionLines at e
        rw [e]
        simp
    rw [key sections fun s hs => hs]
  · intro l hl
    rw [List.mem_append, List.mem_flatMap] at hl
    rcases hl with ⟨s, hs, hl⟩ | hl
    · rw [List.mem_cons] at hl
      rcases hl with rfl | hl
      · simp
      · unfold sectionLines at hl
        rw [List.mem_cons, List.mem_append] at hl
        rcases hl with rfl | hl | hl
        · exact headLine_clean (hsec s hs)
        · exact shortLines_clean _ (hS s hs) l hl
        · obtain ⟨e, he, rfl⟩ := List.mem_map.1 hl
          exact longLine_clean (hL s hs e he)
    · simp only [List.mem_singleton] at hl
      subst hl
      simp

/-! ## The dictionary of sections -/

/-- pairs of section and name in a dictionary of sections -/
def flat (d : List (String × List String)) : List (String × String) := d.flatMap fun s => s.2.map fun n => (s.1, n)

theorem record_keys (d : List (String × List String)) (a b : String) (h : (d.map Prod.fst).Nodup) :
    ((record d a b).map Prod.fst).Nodup := by
  unfold record
  split
  · rename_i hm
    have : (d.map fun s => if s.1 = a then (s.1, s.2 ++ [b]) else s).map Prod.fst = d.map Prod.fst := by
      rw [List.map_map]
      apply List.map_congr_left
      intro s _
      simp only [Function.comp]
      split <;> rfl
    rw [this]
    exact h
  · rename_i hm
    rw [List.map_append, List.nodup_append]
    refine ⟨h, by simp, ?_⟩
    intro x hx y hy
    simp only [List.map_cons, List.map_nil, List.mem_singleton] at hy
    rintro rfl
    exact hm (hy ▸ hx)

theorem record_flat (d : List (String × List String)) (a b : String) (h : (d.map Prod.fst).Nodup) :
    (flat (record d a b)).Perm (flat d ++ [(a, b)]) := by
  unfold record
  split
  · rename_i hm
    induction d with
    | nil => simp at hm
    | cons s d ih =>
      rw [List.map_cons, List.nodup_cons] at h
      by_cases hs : s.1 = a
      · have hno : ∀ r ∈ d, r.1 ≠ a := by
          intro r hr hra
          exact h.1 (hs ▸ hra ▸ List.mem_map_of_mem hr)
        have e : (d.map fun s => if s.1 = a then (s.1, s.2 ++ [b]) else s) = d := by
          conv_rhs => rw [← List.map_id d]
          apply List.map_congr_left
          intro r hr
          rw [if_neg (hno r hr)]
          rfl
        rw [List.map_cons, if_pos hs, e]
        unfold flat
        rw [List.flatMap_cons, List.flatMap_cons, List.map_append, List.append_assoc, List.append_assoc]
        apply List.Perm.append_left
        simp only [List.map_cons, List.map_nil, hs]
        exact List.perm_append_comm
      · have hm' : a ∈ d.map Prod.fst := by
          rw [List.map_cons, List.mem_cons] at hm
          rcases hm with hm | hm
          · exact absurd hm.symm hs
          · exact hm
        rw [List.map_cons, if_neg hs]
        have := ih h.2 hm'
        unfold flat at this ⊢
        rw [List.flatMap_cons, List.flatMap_cons, List.append_assoc]
        exact List.Perm.append_left _ this
  · unfold flat
    simp

theorem sectionsOf_spec (recorded : List (String × String)) :
    ((sectionsOf recorded).map Prod.fst).Nodup ∧ (flat (sectionsOf recorded)).Perm recorded := by
  have key : ∀ (rs : List (String × String)) (d : List (String × List String)), (d.map Prod.fst).Nodup →
      ((rs.foldl (fun d r => record d r.1 r.2) d).map Prod.fst).Nodup ∧
        (flat (rs.foldl (fun d r => record d r.1 r.2) d)).Perm (flat d ++ rs) := by
    intro rs
    induction rs with
    | nil => intro d h; exact ⟨h, by simp⟩
    | cons r rs ih =>
      intro d h
      rw [List.foldl_cons]
      obtain ⟨h1, h2⟩ := ih _ (record_keys d r.1 r.2 h)
      refine ⟨h1, h2.trans ?_⟩
      rw [show flat d ++ r :: rs = (flat d ++ [r]) ++ rs by simp]
      exact (record_flat d r.1 r.2 h).append_right _
  have := key recorded [] (by simp)
  rw [show flat [] ++ recorded = recorded from rfl] at this
  exact this

end WxVerif.Lemmas.ConfigPrint
